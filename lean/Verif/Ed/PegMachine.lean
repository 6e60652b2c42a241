import Verif.Ed.PegMax
import Verif.Ed.Editor

/-!
# pkg/ed/ed.peg.go: the parser as it runs, and the syntax tree

In `Peg.lean` and `PegMax.lean` a rule returns its tokens, and failing returns nothing. The generated code writes the
tokens into an array at `tokenIndex` and goes back by resetting that index, leaving what was written. Here the rules
are data, and run on that state. `PegMachineProps.lean` proves the two agree. The tree is built from the tokens of the array.

Not modelled: `uint32` overflow of positions and indices (texts of 4 GiB).
-/

namespace Ed
open Go

/-- ed.peg.go:17-107 `pegRule`: a rule of the grammar, `rulePegText` or `ruleActionN`. -/
inductive RuleId where
  | named (name : Bytes)
  | pegText
  | action (n : Nat)
  deriving DecidableEq, Repr

/-- ed.peg.go:109-197 `rul3s` -/
def RuleId.name : RuleId → Bytes
  | .named n => n
  | .pegText => b!"PegText"
  | .action n => b!"Action" ++ natToDec n

/-- ed.peg.go:199-202 `token32` -/
structure Token where
  rule : RuleId := .named b!"Unknown"
  b : Nat := 0
  e : Nat := 0
  deriving DecidableEq, Repr

/-- The shapes a rule is made of, see `Peg.lean`. Alternatives of single runes are one `cls`. -/
inductive Gr where
  | cls (f : Nat → Bool)
  | dot
  | seq (p q : Gr)
  | alt (p q : Gr)
  | opt (p : Gr)
  | star (p : Gr)
  | notP (p : Gr)
  | capture (p : Gr)
  | rule (name : Bytes) (p : Gr)
  | act (n : Nat)

/-- ed.peg.go:539-543, 557: what the rule functions share: `position`, `tokenIndex`, the array of `tree` and `max`. -/
structure PState where
  position : Nat := 0
  tokenIndex : Nat := 0
  tree : List Token
  max : MaxTok := {}

/-- ed.peg.go:295-306 `tokens32.Add`: doubles the array when the index is not below its length. -/
def treeAdd (tree : List Token) (t : Token) (index : Nat) : R (List Token) :=
  let tree := if index ≥ tree.length then tree ++ List.replicate tree.length ({} : Token) else tree
  if index < tree.length then .ok (tree.set index t) else .error (.panic .index)

/-- ed.peg.go:572-578 `add` -/
def PState.add (s : PState) (rule : RuleId) (b : Nat) : R PState :=
  match treeAdd s.tree ⟨rule, b, s.position⟩ s.tokenIndex with
  | .error e => .error e
  | .ok tree => .ok ⟨s.position, s.tokenIndex + 1, tree, s.max.add rule.name b s.position⟩

/-- `position, tokenIndex = positionN, tokenIndexN` -/
def PState.restore (s s0 : PState) : PState := { s with position := s0.position, tokenIndex := s0.tokenIndex }

namespace Gr

/-- One given rune. -/
def chr (c : Nat) : Gr := cls (· == c)

/-- `p+` -/
def plus (p : Gr) : Gr := seq p (star p)

/-- `l2: { save; if !p() { goto l3 }; goto l2; l3: restore }`, for a given number of rounds. -/
def loop (p : PState → R (Bool × PState)) : Nat → PState → R (Bool × PState)
  | 0, _ => .error .hang
  | n + 1, s =>
    match p s with
    | .error e => .error e
    | .ok (true, s1) => loop p n s1
    | .ok (false, s1) => .ok (true, s1.restore s)

/-- ed.peg.go:604-2583: what the code of a rule does. `false` is `goto` the place where failing is dealt with, with the state as
it is then. The number of rounds of a loop is bounded by the length of the buffer; running out of it is reported. -/
def run (buf : List Nat) : Gr → PState → R (Bool × PState)
  | cls f, s =>
    match buf[s.position]? with
    | none => .error (.panic .index)
    | some c => if f c then .ok (true, { s with position := s.position + 1 }) else .ok (false, s)
  | dot, s =>
    match buf[s.position]? with
    | none => .error (.panic .index)
    | some c => if c ≠ endSymbol then .ok (true, { s with position := s.position + 1 }) else .ok (false, s)
  | seq p q, s =>
    match run buf p s with
    | .error e => .error e
    | .ok (true, s1) => run buf q s1
    | .ok (false, s1) => .ok (false, s1)
  | alt p q, s =>
    match run buf p s with
    | .error e => .error e
    | .ok (true, s1) => .ok (true, s1)
    | .ok (false, s1) => run buf q (s1.restore s)
  | opt p, s =>
    match run buf p s with
    | .error e => .error e
    | .ok (true, s1) => .ok (true, s1)
    | .ok (false, s1) => .ok (true, s1.restore s)
  | star p, s => loop (run buf p) (buf.length + 1) s
  | notP p, s =>
    match run buf p s with
    | .error e => .error e
    | .ok (true, s1) => .ok (false, s1)
    | .ok (false, s1) => .ok (true, s1.restore s)
  | capture p, s =>
    match run buf p s with
    | .error e => .error e
    | .ok (false, s1) => .ok (false, s1)
    | .ok (true, s1) =>
      match s1.add .pegText s.position with
      | .error e => .error e
      | .ok s2 => .ok (true, s2)
  | rule name p, s =>
    match run buf p s with
    | .error e => .error e
    | .ok (false, s1) => .ok (false, s1.restore s)
    | .ok (true, s1) =>
      match s1.add (.named name) s.position with
      | .error e => .error e
      | .ok s2 => .ok (true, s2)
  | act n, s =>
    match s.add (.action n) s.position with
    | .error e => .error e
    | .ok s2 => .ok (true, s2)

local infixr:65 " ⬝ " => seq
local infixr:60 " / " => alt

/-! ## The rules -/

/-- ed.peg.go:2185-2233 `sp` -/
def sp : Gr := rule b!"sp" (plus (cls (fun c => c == 32 || c == 9)))
/-- ed.peg.go:2169-2184 `newLine` -/
def newLine : Gr := rule b!"newLine" (chr 10)
/-- ed.peg.go:1838-1875 `offset` -/
def offsetR : Gr := rule b!"offset" (cls (fun c => c == 43 || c == 45) ⬝ star (cls isDig))
/-- ed.peg.go:1571-1667 `basic_regex` -/
def basicRegex : Gr := rule b!"basic_regex" (plus ((chr 92 ⬝ chr 47) / (notP (chr 10 / chr 47) ⬝ dot)))
/-- ed.peg.go:1668-1764 `back_regex` -/
def backRegex : Gr := rule b!"back_regex" (plus ((chr 92 ⬝ chr 63) / (notP (chr 10 / chr 63) ⬝ dot)))
/-- ed.peg.go:1462-1495 `literalAddr` -/
def literalAddr : Gr := rule b!"literalAddr" (capture (plus (cls isDig)) ⬝ act 22)
/-- ed.peg.go:1496-1518 `markAddr` -/
def markAddr : Gr := rule b!"markAddr" (chr 39 ⬝ cls isLower ⬝ act 23)
/-- ed.peg.go:1519-1544 `regexAddr` -/
def regexAddr : Gr := rule b!"regexAddr" (chr 47 ⬝ basicRegex ⬝ chr 47 ⬝ act 24)
/-- ed.peg.go:1545-1570 `regexReverseAddr` -/
def regexReverseAddr : Gr := rule b!"regexReverseAddr" (chr 63 ⬝ backRegex ⬝ chr 63 ⬝ act 25)
/-- ed.peg.go:1405-1461 `addr` -/
def addr : Gr :=
  rule b!"addr" (literalAddr / markAddr / regexAddr / regexReverseAddr / (chr 46 ⬝ act 20) / (chr 36 ⬝ act 21))
/-- ed.peg.go:1373-1404 `addrO` -/
def addrO : Gr := rule b!"addrO" (capture (addr ⬝ opt offsetR) ⬝ act 19)
/-- ed.peg.go:1297-1334 `startAddr` -/
def startAddr : Gr := rule b!"startAddr" (star sp ⬝ addrO ⬝ star sp ⬝ act 17)
/-- ed.peg.go:1335-1372 `endAddr` -/
def endAddr : Gr := rule b!"endAddr" (star sp ⬝ addrO ⬝ star sp ⬝ act 18)
/-- ed.peg.go:1142-1261 `range` -/
def range : Gr :=
  rule b!"range"
  ((startAddr ⬝ chr 44 ⬝ endAddr) / (startAddr ⬝ chr 44 ⬝ act 9) / (chr 44 ⬝ endAddr ⬝ act 10) /
  (startAddr ⬝ chr 59 ⬝ endAddr) / (startAddr ⬝ chr 59 ⬝ act 11) / (chr 59 ⬝ endAddr ⬝ act 12) /
  (startAddr ⬝ act 13) / (chr 44 ⬝ act 14) / (chr 59 ⬝ act 15))
/-- ed.peg.go:2073-2135 `rangeC` -/
def rangeC : Gr :=
  rule b!"rangeC"
  ((chr 100 ⬝ act 40) / (chr 106 ⬝ act 41) / (chr 108 ⬝ act 42) / (chr 110 ⬝ act 43) / (chr 112 ⬝ act 44))
/-- ed.peg.go:1107-1141 `rangeCmd` -/
def rangeCmd : Gr := rule b!"rangeCmd" (opt range ⬝ star sp ⬝ rangeC)
/-- ed.peg.go:2002-2020 `addrC` -/
def addrC : Gr := rule b!"addrC" (chr 61 ⬝ act 36)
/-- ed.peg.go:1262-1296 `addrCmd` -/
def addrCmd : Gr := rule b!"addrCmd" ((capture startAddr ⬝ addrC ⬝ act 16) / addrC)
/-- ed.peg.go:1765-1837 `bareCmd` -/
def bareCmd : Gr :=
  rule b!"bareCmd"
  ((chr 104 ⬝ act 26) / (chr 72 ⬝ act 27) / (chr 80 ⬝ act 28) / (chr 113 ⬝ act 29) / (chr 81 ⬝ act 30) /
  (chr 117 ⬝ act 31))
/-- ed.peg.go:1957-2001 `param` -/
def param : Gr := rule b!"param" (plus (notP (chr 10) ⬝ dot))
/-- ed.peg.go:1914-1956 `paramC` -/
def paramC : Gr := rule b!"paramC" ((chr 101 ⬝ act 33) / (chr 69 ⬝ act 34) / (chr 102 ⬝ act 35))
/-- ed.peg.go:1876-1913 `paramCmd` -/
def paramCmd : Gr := rule b!"paramCmd" ((paramC ⬝ sp ⬝ capture param ⬝ act 32) / paramC)
/-- ed.peg.go:2021-2039 `changeTextC` -/
def changeTextC : Gr := rule b!"changeTextC" (chr 99 ⬝ act 37)
/-- ed.peg.go:2040-2072 `addTextC` -/
def addTextC : Gr := rule b!"addTextC" ((chr 97 ⬝ act 38) / (chr 105 ⬝ act 39))
/-- ed.peg.go:2136-2168 `destC` -/
def destC : Gr := rule b!"destC" ((chr 109 ⬝ act 45) / (chr 116 ⬝ act 46))
/-- ed.peg.go:1087-1106 `textTerm` -/
def textTerm : Gr := rule b!"textTerm" (chr 10 ⬝ chr 46)
/-- ed.peg.go:1046-1086 `text` -/
def text : Gr := rule b!"text" (capture (star (notP textTerm ⬝ dot)) ⬝ textTerm ⬝ act 8)
/-- ed.peg.go:766-796 `changeTextCmd` -/
def changeTextCmd : Gr := rule b!"changeTextCmd" (opt range ⬝ changeTextC ⬝ newLine ⬝ text)
/-- ed.peg.go:797-827 `addTextCmd` -/
def addTextCmd : Gr := rule b!"addTextCmd" (opt startAddr ⬝ addTextC ⬝ newLine ⬝ text)
/-- ed.peg.go:828-864 `markCmd` -/
def markCmd : Gr := rule b!"markCmd" (opt startAddr ⬝ chr 107 ⬝ capture (cls isLower) ⬝ act 2)
/-- ed.peg.go:865-899 `destCmd` -/
def destCmd : Gr := rule b!"destCmd" (opt range ⬝ destC ⬝ capture addrO ⬝ act 3)
/-- ed.peg.go:900-938 `readCmd` -/
def readCmd : Gr := rule b!"readCmd" (opt startAddr ⬝ chr 114 ⬝ sp ⬝ capture param ⬝ act 4)
/-- ed.peg.go:939-1001 `writeCmd` -/
def writeCmd : Gr := rule b!"writeCmd" ((opt range ⬝ chr 119 ⬝ sp ⬝ capture param ⬝ act 5) / (opt range ⬝ chr 119 ⬝ act 6))
/-- ed.peg.go:1002-1027 `shellCmd` -/
def shellCmd : Gr := rule b!"shellCmd" (chr 33 ⬝ capture param ⬝ act 7)
/-- ed.peg.go:1028-1045 `nullCmd` -/
def nullCmd : Gr := rule b!"nullCmd" (opt startAddr)
/-- ed.peg.go:681-765 `cmd` -/
def cmd : Gr :=
  rule b!"cmd"
  (bareCmd / paramCmd / rangeCmd / addrCmd / changeTextCmd / addTextCmd / markCmd / destCmd / readCmd / writeCmd /
  shellCmd / nullCmd)
/-- ed.peg.go:640-680 `e` -/
def e : Gr := rule b!"e" (star sp ⬝ cmd ⬝ star sp ⬝ newLine ⬝ act 1)
/-- ed.peg.go:606-639 `first` -/
def first : Gr := rule b!"first" (star e ⬝ notP dot ⬝ act 0)

end Gr

/-! ## The parser -/

/-- ed.peg.go:312-324 `Parser`, with the variables its functions share. `tokens` is `tokens32.tree`, `runes` is `buffer`. -/
structure Parser where
  buffer : Bytes
  runes : List Nat
  state : PState
  tokens : List Token := []

/-- ed.peg.go:330-332, 544-553 `Reset`: the array is kept. -/
def Parser.reset (p : Parser) : Parser :=
  { p with runes := Go.runes p.buffer ++ [endSymbol], state := ⟨0, 0, p.state.tree, {}⟩ }

/-- ed.peg.go:538-557 `Init` -/
def Parser.init (buffer : Bytes) : Parser := Parser.reset ⟨buffer, [], ⟨0, 0, List.replicate 32767 ({} : Token), {}⟩, []⟩

/-- ed.peg.go:326-328, 558-570 `Parse`, for the rule `first` or the one given: success, or the token of the error. `Trim` cuts the
tokens, not the array used next time. -/
def Parser.parse (p : Parser) (g : Gr) : R (Option MaxTok × Parser) :=
  match g.run p.runes p.state with
  | .error e => .error e
  | .ok (true, s) => .ok (none, { p with state := s, tokens := s.tree.take s.tokenIndex })
  | .ok (false, s) => .ok (some s.max, { p with state := s, tokens := s.tree })

/-- The tokens `Execute` reacts to. -/
def Token.tok (t : Token) : List Tok :=
  match t.rule with
  | .named _ => []
  | .pegText => [.pegText t.b t.e]
  | .action n => [.act n]

/-- ed.peg.go:406-536 `Execute`: `curCmd` and `curAddr` after it, which stay in the parser. (`begin` and `end` do not.) -/
def executed (buffer : Bytes) : Exec → List Tok → Exec
  | s, [] => s
  | s, .pegText b e :: ts => executed buffer { s with b := b, e := e } ts
  | s, .act n :: ts => if n = 1 then executed buffer { s with cmd := {} } ts else executed buffer (s.step buffer n) ts

/-! ## The syntax tree -/

/-- ed.peg.go:208-211 `node32`: nil, or a node with its token, the first node below (`up`) and the `next` beside it. -/
inductive Node where
  | nil
  | node (t : Token) (up next : Node)
  deriving DecidableEq, Repr

/-- ed.peg.go:270-274: the inner loop of `AST`: the nodes on the stack which lie in the token go below it, in front of those
already there. (Nodes on the stack have no `next`.) -/
def absorb (t : Token) : List (Token × Node) → Node → Node × List (Token × Node)
  | [], up => (up, [])
  | (s, sup) :: stack, up =>
    if s.b ≥ t.b ∧ s.e ≤ t.e then absorb t stack (.node s sup up) else (up, (s, sup) :: stack)

/-- ed.peg.go:265-276: one round of the outer loop. -/
def astStep (stack : List (Token × Node)) (t : Token) : List (Token × Node) :=
  if t.b = t.e then stack else (t, (absorb t stack .nil).1) :: (absorb t stack .nil).2

/-- ed.peg.go:258-281 `AST` -/
def ast (tokens : List Token) : Node :=
  match tokens.foldl astStep [] with
  | [] => .nil
  | (t, up) :: _ => .node t up .nil

/-- ed.peg.go:222-228: the name of a rule as printed, in blue if `pretty`. -/
def showRule (pretty : Bool) (r : RuleId) : Bytes := if pretty then b!"\x1B[34m" ++ r.name ++ b!"\x1B[m" else r.name

/-- ed.peg.go:213-236 `print`: depth first, one blank per level. `none` is a panic, of slicing. -/
def Node.print (quote : Bytes → Bytes) (pretty : Bool) (rs : List Nat) : Node → Nat → Option Bytes
  | .nil, _ => some []
  | .node t up next, depth =>
    if t.b ≤ t.e ∧ t.e ≤ rs.length then
      match print quote pretty rs up (depth + 1), print quote pretty rs next depth with
      | some u, some n =>
        some (List.replicate depth 32 ++ showRule pretty t.rule ++ [32] ++ quote (ofRunes ((rs.drop t.b).take (t.e - t.b))) ++ [10] ++ u ++ n)
      | _, _ => none
    else none

/-- ed.peg.go:238-244, 283-293, 394-404 `PrintSyntaxTree`, and `WriteSyntaxTree`, which is never `pretty`. -/
def Parser.printSyntaxTree (quote : Bytes → Bytes) (pretty : Bool) (p : Parser) : Option Bytes :=
  (ast p.tokens).print quote pretty (Go.runes p.buffer) 0

end Ed
