import Verif.Ed.Command
import Verif.Go.Utf8

/-!
# pkg/ed/ed.peg.go: the generated parser

Every rule of the generated code is a function on the position and the remaining runes that fails or
returns the new position, what remains and the tokens added. Only the tokens `Execute` looks at
(`PegText` and the actions) are kept. The sentinel rune `endSymbol` at the end of the buffer is the
empty list. Restoring `position` and `tokenIndex` on failure is returning `none`; the rules on the real state are in
`PegMachine.lean`, and proved to agree. The `max` token, which
only determines the text of the error message, is in `PegMax.lean`.
-/

namespace Ed
open Go

/-- ed.peg.go: the tokens `Execute` reacts to: `rulePegText` with its span and `ruleActionN`. -/
inductive Tok where
  | pegText (b e : Nat)
  | act (n : Nat)
  deriving DecidableEq, Repr

/-- A rule function, `func() bool` (ed.peg.go:604). -/
abbrev P := Nat → List Nat → Option (Nat × List Nat × List Tok)

/-! ## The shapes the generator emits -/

/-- `if buffer[position] != rune('x') { goto fail }; position++` (for a set of runes). -/
def cls (f : Nat → Bool) : P
  | pos, c :: rs => if f c then some (pos + 1, rs, []) else none
  | _, [] => none

/-- One given rune. -/
def chr (c : Nat) : P := cls (· == c)

/-- ed.peg.go:580-586 `matchDot`. -/
def dot : P := cls (fun _ => true)

/-- One rule after another. -/
def seq (p q : P) : P := fun pos rs =>
  match p pos rs with
  | none => none
  | some (pos1, rs1, t1) =>
    match q pos1 rs1 with
    | none => none
    | some (pos2, rs2, t2) => some (pos2, rs2, t1 ++ t2)

/-- Ordered choice. -/
def alt (p q : P) : P := fun pos rs =>
  match p pos rs with
  | some r => some r
  | none => q pos rs

/-- `p?` -/
def opt (p : P) : P := fun pos rs =>
  match p pos rs with
  | some r => some r
  | none => some (pos, rs, [])

/-- `p*` with a bound on the number of rounds. -/
def starAux (p : P) : Nat → Nat → List Nat → Nat × List Nat × List Tok
  | 0, pos, rs => (pos, rs, [])
  | n + 1, pos, rs =>
    match p pos rs with
    | none => (pos, rs, [])
    | some (pos1, rs1, t1) =>
      let r := starAux p n pos1 rs1
      (r.1, r.2.1, t1 ++ r.2.2)

/-- `p*`. Every `p` under a star consumes at least one rune, so the bound is never reached
(`star_unbounded`). -/
def star (p : P) : P := fun pos rs => some (starAux p (rs.length + 1) pos rs)

/-- `p+` -/
def plus (p : P) : P := seq p (star p)

/-- `!p` -/
def notP (p : P) : P := fun pos rs =>
  match p pos rs with
  | some _ => none
  | none => some (pos, rs, [])

/-- `<p>`: adds `rulePegText`. -/
def capture (p : P) : P := fun pos rs =>
  match p pos rs with
  | none => none
  | some (pos1, rs1, t) => some (pos1, rs1, t ++ [.pegText pos pos1])

/-- `ruleActionN` (ed.peg.go:2234-2583). -/
def act (n : Nat) : P := fun pos rs => some (pos, rs, [.act n])

@[inherit_doc] infixr:65 " ⬝ " => seq
@[inherit_doc] infixr:60 " / " => alt

/-! ## The rules -/

/-- ed.peg.go:2185-2233 `sp <- (' ' / '\t')+` -/
def sp : P := plus (cls (fun c => c == 32 || c == 9))

/-- ed.peg.go:2169-2184 `newLine` -/
def newLine : P := chr 10

/-- An ASCII digit. -/
def isDig (c : Nat) : Bool := 48 ≤ c && c ≤ 57

/-- ed.peg.go:1838-1875 `offset <- ('+' / '-') [0-9]*` -/
def offsetR : P := cls (fun c => c == 43 || c == 45) ⬝ star (cls isDig)

/-- ed.peg.go:1571-1667 `basic_regex` -/
def basicRegex : P := plus ((chr 92 ⬝ chr 47) / (notP (chr 10 / chr 47) ⬝ dot))

/-- ed.peg.go:1668-1764 `back_regex` -/
def backRegex : P := plus ((chr 92 ⬝ chr 63) / (notP (chr 10 / chr 63) ⬝ dot))

/-- ed.peg.go:1462-1495 `literalAddr <- <[0-9]+> Action22` -/
def literalAddr : P := capture (plus (cls isDig)) ⬝ act 22

/-- A lower-case ASCII letter. -/
def isLower (c : Nat) : Bool := 97 ≤ c && c ≤ 122

/-- ed.peg.go:1496-1518 `markAddr <- '\'' [a-z] Action23` -/
def markAddr : P := chr 39 ⬝ cls isLower ⬝ act 23

/-- ed.peg.go:1519-1544 `regexAddr <- '/' basic_regex '/' Action24` -/
def regexAddr : P := chr 47 ⬝ basicRegex ⬝ chr 47 ⬝ act 24

/-- ed.peg.go:1545-1570 `regexReverseAddr <- '?' back_regex '?' Action25` -/
def regexReverseAddr : P := chr 63 ⬝ backRegex ⬝ chr 63 ⬝ act 25

/-- ed.peg.go:1405-1461 `addr` -/
def addr : P :=
  literalAddr / markAddr / regexAddr / regexReverseAddr / (chr 46 ⬝ act 20) / (chr 36 ⬝ act 21)

/-- ed.peg.go:1373-1404 `addrO <- <addr offset?> Action19` -/
def addrO : P := capture (addr ⬝ opt offsetR) ⬝ act 19

/-- ed.peg.go:1297-1334 `startAddr <- sp* addrO sp* Action17` -/
def startAddr : P := star sp ⬝ addrO ⬝ star sp ⬝ act 17

/-- ed.peg.go:1335-1372 `endAddr <- sp* addrO sp* Action18` -/
def endAddr : P := star sp ⬝ addrO ⬝ star sp ⬝ act 18

/-- ed.peg.go:1142-1261 `range`. (The generated code differs from ed.peg here.) -/
def range : P :=
  (startAddr ⬝ chr 44 ⬝ endAddr) / (startAddr ⬝ chr 44 ⬝ act 9) / (chr 44 ⬝ endAddr ⬝ act 10) /
  (startAddr ⬝ chr 59 ⬝ endAddr) / (startAddr ⬝ chr 59 ⬝ act 11) / (chr 59 ⬝ endAddr ⬝ act 12) /
  (startAddr ⬝ act 13) / (chr 44 ⬝ act 14) / (chr 59 ⬝ act 15)

/-- ed.peg.go:2073-2135 `rangeC` -/
def rangeC : P :=
  (chr 100 ⬝ act 40) / (chr 106 ⬝ act 41) / (chr 108 ⬝ act 42) / (chr 110 ⬝ act 43) / (chr 112 ⬝ act 44)

/-- ed.peg.go:1107-1141 `rangeCmd <- range? sp* rangeC` -/
def rangeCmd : P := opt range ⬝ star sp ⬝ rangeC

/-- ed.peg.go:2002-2020 `addrC <- '=' Action36` -/
def addrC : P := chr 61 ⬝ act 36

/-- ed.peg.go:1262-1296 `addrCmd <- (<startAddr> addrC Action16) / addrC` -/
def addrCmd : P := (capture startAddr ⬝ addrC ⬝ act 16) / addrC

/-- ed.peg.go:1765-1837 `bareCmd` -/
def bareCmd : P :=
  (chr 104 ⬝ act 26) / (chr 72 ⬝ act 27) / (chr 80 ⬝ act 28) / (chr 113 ⬝ act 29) / (chr 81 ⬝ act 30) /
  (chr 117 ⬝ act 31)

/-- ed.peg.go:1957-2001 `param <- (!'\n' .)+` -/
def param : P := plus (notP (chr 10) ⬝ dot)

/-- ed.peg.go:1914-1956 `paramC` -/
def paramC : P := (chr 101 ⬝ act 33) / (chr 69 ⬝ act 34) / (chr 102 ⬝ act 35)

/-- ed.peg.go:1876-1913 `paramCmd <- (paramC sp <param> Action32) / paramC` -/
def paramCmd : P := (paramC ⬝ sp ⬝ capture param ⬝ act 32) / paramC

/-- ed.peg.go:2021-2039 `changeTextC <- 'c' Action37` -/
def changeTextC : P := chr 99 ⬝ act 37

/-- ed.peg.go:2040-2072 `addTextC <- ('a' Action38) / ('i' Action39)` -/
def addTextC : P := (chr 97 ⬝ act 38) / (chr 105 ⬝ act 39)

/-- ed.peg.go:2136-2168 `destC <- ('m' Action45) / ('t' Action46)` -/
def destC : P := (chr 109 ⬝ act 45) / (chr 116 ⬝ act 46)

/-- ed.peg.go:1087-1106 `textTerm <- '\n' '.'` -/
def textTerm : P := chr 10 ⬝ chr 46

/-- ed.peg.go:1046-1086 `text <- <(!textTerm .)*> textTerm Action8` -/
def text : P := capture (star (notP textTerm ⬝ dot)) ⬝ textTerm ⬝ act 8

/-- ed.peg.go:766-796 `changeTextCmd <- range? changeTextC newLine text` -/
def changeTextCmd : P := opt range ⬝ changeTextC ⬝ newLine ⬝ text

/-- ed.peg.go:797-827 `addTextCmd <- startAddr? addTextC newLine text` -/
def addTextCmd : P := opt startAddr ⬝ addTextC ⬝ newLine ⬝ text

/-- ed.peg.go:828-864 `markCmd <- startAddr? 'k' <[a-z]> Action2` -/
def markCmd : P := opt startAddr ⬝ chr 107 ⬝ capture (cls isLower) ⬝ act 2

/-- ed.peg.go:865-899 `destCmd <- range? destC <addrO> Action3` -/
def destCmd : P := opt range ⬝ destC ⬝ capture addrO ⬝ act 3

/-- ed.peg.go:900-938 `readCmd <- startAddr? 'r' sp <param> Action4` -/
def readCmd : P := opt startAddr ⬝ chr 114 ⬝ sp ⬝ capture param ⬝ act 4

/-- ed.peg.go:939-1001 `writeCmd <- (range? 'w' sp <param> Action5) / (range? 'w' Action6)` -/
def writeCmd : P := (opt range ⬝ chr 119 ⬝ sp ⬝ capture param ⬝ act 5) / (opt range ⬝ chr 119 ⬝ act 6)

/-- ed.peg.go:1002-1027 `shellCmd <- '!' <param> Action7` -/
def shellCmd : P := chr 33 ⬝ capture param ⬝ act 7

/-- ed.peg.go:1028-1045 `nullCmd <- startAddr?` -/
def nullCmd : P := opt startAddr

/-- ed.peg.go:681-765 `cmd` -/
def cmd : P :=
  bareCmd / paramCmd / rangeCmd / addrCmd / changeTextCmd / addTextCmd / markCmd / destCmd / readCmd / writeCmd /
  shellCmd / nullCmd

/-- ed.peg.go:640-680 `e <- sp* cmd sp* newLine Action1` -/
def e : P := star sp ⬝ cmd ⬝ star sp ⬝ newLine ⬝ act 1

/-- ed.peg.go:606-639 `first <- e* !. Action0` -/
def first : P := star e ⬝ notP dot ⬝ act 0

/-- ed.peg.go:564-576 `parse` on the runes of the buffer: the tokens, or `none` for the error. -/
def parse (buffer : Bytes) : Option (List Tok) := (first 0 (runes buffer)).map (·.2.2)

/-! ## Execute -/

/-- ed.peg.go:309-311, 407: the parser's `curCmd` and `curAddr`, and the local `begin` and `end`. -/
structure Exec where
  b : Nat := 0
  e : Nat := 0
  cmd : Command := {}
  addr : Address := {}

/-- `buffer[begin:end]` (the indices count runes but the slice counts bytes). -/
def Exec.text (buffer : Bytes) (s : Exec) : Bytes := (buffer.drop s.b).take (s.e - s.b)

/-- ed.peg.go:415-532: what an action does to `curCmd` and `curAddr`. -/
def Exec.step (buffer : Bytes) (s : Exec) (n : Nat) : Exec :=
  match n with
  | 2 => { s with cmd := { s.cmd with typ := .mark, params := [s.text buffer] } }
  | 3 => { s with cmd := { s.cmd with dest := s.addr }, addr := {} }
  | 4 => { s with cmd := { s.cmd with typ := .read, text := s.text buffer } }
  | 5 => { s with cmd := { s.cmd with typ := .write, text := s.text buffer } }
  | 6 => { s with cmd := { s.cmd with typ := .write } }
  | 7 => { s with cmd := { s.cmd with typ := .shell, text := s.text buffer } }
  | 8 => { s with cmd := { s.cmd with text := s.text buffer } }
  | 9 => { s with cmd := { s.cmd with end_ := s.cmd.start } }
  | 10 => { s with cmd := { s.cmd with start := aFirst } }
  | 11 => { s with cmd := { s.cmd with end_ := s.cmd.start } }
  | 12 => { s with cmd := { s.cmd with start := aCur } }
  | 13 => { s with cmd := { s.cmd with end_ := s.cmd.start } }
  | 14 => { s with cmd := { s.cmd with start := aFirst, end_ := aLast } }
  | 15 => { s with cmd := { s.cmd with start := aCur, end_ := aLast } }
  | 16 => { s with cmd := { s.cmd with start := { s.cmd.start with text := s.text buffer } } }
  | 17 => { s with cmd := { s.cmd with start := s.addr }, addr := {} }
  | 18 => { s with cmd := { s.cmd with end_ := s.addr }, addr := {} }
  | 19 => { s with addr := { s.addr with text := s.text buffer } }
  | 20 => { s with addr := { s.addr with typ := .current } }
  | 21 => { s with addr := { s.addr with typ := .last } }
  | 22 => { s with addr := { s.addr with typ := .num } }
  | 23 => { s with addr := { s.addr with typ := .mark } }
  | 24 => { s with addr := { s.addr with typ := .regex } }
  | 25 => { s with addr := { s.addr with typ := .regexReverse } }
  | 26 => { s with cmd := { s.cmd with typ := .help } }
  | 27 => { s with cmd := { s.cmd with typ := .helpMode } }
  | 28 => { s with cmd := { s.cmd with typ := .prompt } }
  | 29 => { s with cmd := { s.cmd with typ := .quit } }
  | 30 => { s with cmd := { s.cmd with typ := .quitForce } }
  | 31 => { s with cmd := { s.cmd with typ := .undo } }
  | 32 => { s with cmd := { s.cmd with params := [s.text buffer] } }
  | 33 => { s with cmd := { s.cmd with typ := .edit } }
  | 34 => { s with cmd := { s.cmd with typ := .editForce } }
  | 35 => { s with cmd := { s.cmd with typ := .filename } }
  | 36 => { s with cmd := { s.cmd with typ := .lineNumber } }
  | 37 => { s with cmd := { s.cmd with typ := .change } }
  | 38 => { s with cmd := { s.cmd with typ := .append } }
  | 39 => { s with cmd := { s.cmd with typ := .insert } }
  | 40 => { s with cmd := { s.cmd with typ := .delete } }
  | 41 => { s with cmd := { s.cmd with typ := .join } }
  | 42 => { s with cmd := { s.cmd with typ := .list } }
  | 43 => { s with cmd := { s.cmd with typ := .number } }
  | 44 => { s with cmd := { s.cmd with typ := .print } }
  | 45 => { s with cmd := { s.cmd with typ := .move } }
  | 46 => { s with cmd := { s.cmd with typ := .copy } }
  | _ => s

/-- ed.peg.go:406-536 `Execute`: the commands sent on `Out`. -/
def execute (buffer : Bytes) : Exec → List Tok → List Command
  | _, [] => []
  | s, .pegText b e :: ts => execute buffer { s with b := b, e := e } ts
  | s, .act n :: ts =>
    if n = 1 then s.cmd :: execute buffer { s with cmd := {} } ts
    else execute buffer (s.step buffer n) ts

/-- ed.go:230-239: the commands a buffer stands for, `none` for a parse error. -/
def parseCommands (buffer : Bytes) : Option (List Command) := (parse buffer).map (execute buffer {})

/-- What `Execute` does that others see: print a text on standard output (ed.peg.go:448-449, action 8) or send a
command on `Out` (ed.peg.go:417-421, action 1). -/
inductive Emit where
  | show (t : Bytes)
  | send (c : Command)
  deriving DecidableEq, Repr

/-- ed.peg.go:406-536 `Execute`: all its visible effects, in order. (`execute` has the commands alone.) -/
def emits (buffer : Bytes) : Exec → List Tok → List Emit
  | _, [] => []
  | s, .pegText b e :: ts => emits buffer { s with b := b, e := e } ts
  | s, .act n :: ts =>
    if n = 1 then .send s.cmd :: emits buffer { s with cmd := {} } ts
    else if n = 8 then .show (s.text buffer) :: emits buffer (s.step buffer n) ts
    else emits buffer (s.step buffer n) ts

/-- ed.go:230-239: the effects of parsing and executing a buffer, `none` for a parse error. -/
def parseEmits (buffer : Bytes) : Option (List Emit) := (parse buffer).map (emits buffer {})

end Ed
