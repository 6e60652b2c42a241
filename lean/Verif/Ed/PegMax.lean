import Verif.Ed.Peg
import Verif.Go.Strconv

/-!
# pkg/ed/ed.peg.go: the text of a parse error

The rules once more, with the variable `max`: the token with the greatest end seen so far, even in attempts that
failed later. That the rules accept the same and add the same tokens as those of `Peg.lean` is
proved in `PegMaxProps.lean`.
-/

namespace Ed
open Go

/-- ed.peg.go `token32`: the name of the rule (`rul3s`), and where the token begins and ends. -/
structure MaxTok where
  rule : Bytes := b!"Unknown"
  b : Nat := 0
  e : Nat := 0
  deriving DecidableEq, Repr

/-- A rule function with `max`, which is not restored on failure. -/
abbrev PM := Nat → List Nat → MaxTok → Option (Nat × List Nat × List Tok) × MaxTok

/-- ed.peg.go:572-578 `add` of a token from `b` to the position `p`: what it does to `max`. -/
def MaxTok.add (m : MaxTok) (rule : Bytes) (b p : Nat) : MaxTok := if b ≠ p ∧ p > m.e then ⟨rule, b, p⟩ else m

namespace PM

/-- A rune of a set. -/
def cls (f : Nat → Bool) : PM := fun pos rs m => (Ed.cls f pos rs, m)

/-- One given rune. -/
def chr (c : Nat) : PM := cls (· == c)

/-- ed.peg.go:580-586 `matchDot`. -/
def dot : PM := cls (fun _ => true)

/-- One rule after another. -/
def seq (p q : PM) : PM := fun pos rs m =>
  match p pos rs m with
  | (none, m1) => (none, m1)
  | (some (pos1, rs1, t1), m1) =>
    match q pos1 rs1 m1 with
    | (none, m2) => (none, m2)
    | (some (pos2, rs2, t2), m2) => (some (pos2, rs2, t1 ++ t2), m2)

/-- Ordered choice. -/
def alt (p q : PM) : PM := fun pos rs m =>
  match p pos rs m with
  | (some r, m1) => (some r, m1)
  | (none, m1) => q pos rs m1

/-- `p?` -/
def opt (p : PM) : PM := fun pos rs m =>
  match p pos rs m with
  | (some r, m1) => (some r, m1)
  | (none, m1) => (some (pos, rs, []), m1)

/-- `p*` with a bound on the number of rounds. -/
def starAux (p : PM) : Nat → Nat → List Nat → MaxTok → (Nat × List Nat × List Tok) × MaxTok
  | 0, pos, rs, m => ((pos, rs, []), m)
  | n + 1, pos, rs, m =>
    match p pos rs m with
    | (none, m1) => ((pos, rs, []), m1)
    | (some (pos1, rs1, t1), m1) =>
      let r := starAux p n pos1 rs1 m1
      ((r.1.1, r.1.2.1, t1 ++ r.1.2.2), r.2)

/-- `p*`, see `Ed.star`. -/
def star (p : PM) : PM := fun pos rs m => (some (starAux p (rs.length + 1) pos rs m).1, (starAux p (rs.length + 1) pos rs m).2)

/-- `p+` -/
def plus (p : PM) : PM := seq p (star p)

/-- `!p` -/
def notP (p : PM) : PM := fun pos rs m =>
  match p pos rs m with
  | (some _, m1) => (none, m1)
  | (none, m1) => (some (pos, rs, []), m1)

/-- `<p>`: adds `rulePegText`. -/
def capture (p : PM) : PM := fun pos rs m =>
  match p pos rs m with
  | (none, m1) => (none, m1)
  | (some (pos1, rs1, t), m1) => (some (pos1, rs1, t ++ [.pegText pos pos1]), m1.add b!"PegText" pos pos1)

/-- The function of a rule: `add` when it has succeeded. -/
def rule (name : Bytes) (p : PM) : PM := fun pos rs m =>
  match p pos rs m with
  | (none, m1) => (none, m1)
  | (some (pos1, rs1, t), m1) => (some (pos1, rs1, t), m1.add name pos pos1)

/-- `ruleActionN`: the token is empty. -/
def act (n : Nat) : PM := fun pos rs m => (some (pos, rs, [.act n]), m)

local infixr:65 " ⬝ " => seq
local infixr:60 " / " => alt

/-! ## The rules -/

/-- ed.peg.go:2185-2233 `sp` -/
def sp : PM := rule b!"sp" (plus (cls (fun c => c == 32 || c == 9)))
/-- ed.peg.go:2169-2184 `newLine` -/
def newLine : PM := rule b!"newLine" (chr 10)
/-- ed.peg.go:1838-1875 `offset` -/
def offsetR : PM := rule b!"offset" (cls (fun c => c == 43 || c == 45) ⬝ star (cls isDig))
/-- ed.peg.go:1571-1667 `basic_regex` -/
def basicRegex : PM := rule b!"basic_regex" (plus ((chr 92 ⬝ chr 47) / (notP (chr 10 / chr 47) ⬝ dot)))
/-- ed.peg.go:1668-1764 `back_regex` -/
def backRegex : PM := rule b!"back_regex" (plus ((chr 92 ⬝ chr 63) / (notP (chr 10 / chr 63) ⬝ dot)))
/-- ed.peg.go:1462-1495 `literalAddr` -/
def literalAddr : PM := rule b!"literalAddr" (capture (plus (cls isDig)) ⬝ act 22)
/-- ed.peg.go:1496-1518 `markAddr` -/
def markAddr : PM := rule b!"markAddr" (chr 39 ⬝ cls isLower ⬝ act 23)
/-- ed.peg.go:1519-1544 `regexAddr` -/
def regexAddr : PM := rule b!"regexAddr" (chr 47 ⬝ basicRegex ⬝ chr 47 ⬝ act 24)
/-- ed.peg.go:1545-1570 `regexReverseAddr` -/
def regexReverseAddr : PM := rule b!"regexReverseAddr" (chr 63 ⬝ backRegex ⬝ chr 63 ⬝ act 25)
/-- ed.peg.go:1405-1461 `addr` -/
def addr : PM :=
  rule b!"addr" (literalAddr / markAddr / regexAddr / regexReverseAddr / (chr 46 ⬝ act 20) / (chr 36 ⬝ act 21))
/-- ed.peg.go:1373-1404 `addrO` -/
def addrO : PM := rule b!"addrO" (capture (addr ⬝ opt offsetR) ⬝ act 19)
/-- ed.peg.go:1297-1334 `startAddr` -/
def startAddr : PM := rule b!"startAddr" (star sp ⬝ addrO ⬝ star sp ⬝ act 17)
/-- ed.peg.go:1335-1372 `endAddr` -/
def endAddr : PM := rule b!"endAddr" (star sp ⬝ addrO ⬝ star sp ⬝ act 18)
/-- ed.peg.go:1142-1261 `range` -/
def range : PM :=
  rule b!"range"
  ((startAddr ⬝ chr 44 ⬝ endAddr) / (startAddr ⬝ chr 44 ⬝ act 9) / (chr 44 ⬝ endAddr ⬝ act 10) /
  (startAddr ⬝ chr 59 ⬝ endAddr) / (startAddr ⬝ chr 59 ⬝ act 11) / (chr 59 ⬝ endAddr ⬝ act 12) /
  (startAddr ⬝ act 13) / (chr 44 ⬝ act 14) / (chr 59 ⬝ act 15))
/-- ed.peg.go:2073-2135 `rangeC` -/
def rangeC : PM :=
  rule b!"rangeC"
  ((chr 100 ⬝ act 40) / (chr 106 ⬝ act 41) / (chr 108 ⬝ act 42) / (chr 110 ⬝ act 43) / (chr 112 ⬝ act 44))
/-- ed.peg.go:1107-1141 `rangeCmd` -/
def rangeCmd : PM := rule b!"rangeCmd" (opt range ⬝ star sp ⬝ rangeC)
/-- ed.peg.go:2002-2020 `addrC` -/
def addrC : PM := rule b!"addrC" (chr 61 ⬝ act 36)
/-- ed.peg.go:1262-1296 `addrCmd` -/
def addrCmd : PM := rule b!"addrCmd" ((capture startAddr ⬝ addrC ⬝ act 16) / addrC)
/-- ed.peg.go:1765-1837 `bareCmd` -/
def bareCmd : PM :=
  rule b!"bareCmd"
  ((chr 104 ⬝ act 26) / (chr 72 ⬝ act 27) / (chr 80 ⬝ act 28) / (chr 113 ⬝ act 29) / (chr 81 ⬝ act 30) /
  (chr 117 ⬝ act 31))
/-- ed.peg.go:1957-2001 `param` -/
def param : PM := rule b!"param" (plus (notP (chr 10) ⬝ dot))
/-- ed.peg.go:1914-1956 `paramC` -/
def paramC : PM := rule b!"paramC" ((chr 101 ⬝ act 33) / (chr 69 ⬝ act 34) / (chr 102 ⬝ act 35))
/-- ed.peg.go:1876-1913 `paramCmd` -/
def paramCmd : PM := rule b!"paramCmd" ((paramC ⬝ sp ⬝ capture param ⬝ act 32) / paramC)
/-- ed.peg.go:2021-2039 `changeTextC` -/
def changeTextC : PM := rule b!"changeTextC" (chr 99 ⬝ act 37)
/-- ed.peg.go:2040-2072 `addTextC` -/
def addTextC : PM := rule b!"addTextC" ((chr 97 ⬝ act 38) / (chr 105 ⬝ act 39))
/-- ed.peg.go:2136-2168 `destC` -/
def destC : PM := rule b!"destC" ((chr 109 ⬝ act 45) / (chr 116 ⬝ act 46))
/-- ed.peg.go:1087-1106 `textTerm` -/
def textTerm : PM := rule b!"textTerm" (chr 10 ⬝ chr 46)
/-- ed.peg.go:1046-1086 `text` -/
def text : PM := rule b!"text" (capture (star (notP textTerm ⬝ dot)) ⬝ textTerm ⬝ act 8)
/-- ed.peg.go:766-796 `changeTextCmd` -/
def changeTextCmd : PM := rule b!"changeTextCmd" (opt range ⬝ changeTextC ⬝ newLine ⬝ text)
/-- ed.peg.go:797-827 `addTextCmd` -/
def addTextCmd : PM := rule b!"addTextCmd" (opt startAddr ⬝ addTextC ⬝ newLine ⬝ text)
/-- ed.peg.go:828-864 `markCmd` -/
def markCmd : PM := rule b!"markCmd" (opt startAddr ⬝ chr 107 ⬝ capture (cls isLower) ⬝ act 2)
/-- ed.peg.go:865-899 `destCmd` -/
def destCmd : PM := rule b!"destCmd" (opt range ⬝ destC ⬝ capture addrO ⬝ act 3)
/-- ed.peg.go:900-938 `readCmd` -/
def readCmd : PM := rule b!"readCmd" (opt startAddr ⬝ chr 114 ⬝ sp ⬝ capture param ⬝ act 4)
/-- ed.peg.go:939-1001 `writeCmd` -/
def writeCmd : PM := rule b!"writeCmd" ((opt range ⬝ chr 119 ⬝ sp ⬝ capture param ⬝ act 5) / (opt range ⬝ chr 119 ⬝ act 6))
/-- ed.peg.go:1002-1027 `shellCmd` -/
def shellCmd : PM := rule b!"shellCmd" (chr 33 ⬝ capture param ⬝ act 7)
/-- ed.peg.go:1028-1045 `nullCmd` -/
def nullCmd : PM := rule b!"nullCmd" (opt startAddr)
/-- ed.peg.go:681-765 `cmd` -/
def cmd : PM :=
  rule b!"cmd"
  (bareCmd / paramCmd / rangeCmd / addrCmd / changeTextCmd / addTextCmd / markCmd / destCmd / readCmd / writeCmd /
  shellCmd / nullCmd)
/-- ed.peg.go:640-680 `e` -/
def e : PM := rule b!"e" (star sp ⬝ cmd ⬝ star sp ⬝ newLine ⬝ act 1)
/-- ed.peg.go:606-639 `first` -/
def first : PM := rule b!"first" (star e ⬝ notP dot ⬝ act 0)

end PM

/-- ed.peg.go:557-570 `Parse`: the tokens, or the token the error is about. -/
def parseM (buffer : Bytes) : Except MaxTok (List Tok) :=
  match PM.first 0 (runes buffer) {} with
  | (some r, _) => .ok r.2.2
  | (none, m) => .error m

/-! ## The message -/

/-- ed.peg.go:340-363 `translatePositions` for the two sorted positions of a token: the loop from index `i` on.
`none` where the map has no entry. The last rune of the buffer is `endSymbol`. -/
def translate (positions : List Nat) (i line symbol : Nat) : List Nat → List (Nat × Nat × Nat)
  | [] => []
  | c :: rs =>
    let line' := if c = 10 then line + 1 else line
    let symbol' := if c = 10 then 0 else symbol + 1
    match positions with
    | [] => []
    | p :: ps =>
      if i = p then
        let rest := ps.dropWhile (· = i)
        (p, line', symbol') :: (if rest = [] then [] else translate rest (i + 1) line' symbol' rs)
      else translate (p :: ps) (i + 1) line' symbol' rs

/-- ed.peg.go `endSymbol` -/
def endSymbol : Nat := 1114112

/-- A lookup in the map, which gives zeros for a missing key. -/
def position (table : List (Nat × Nat × Nat)) (p : Nat) : Nat × Nat := (table.lookup p).getD (0, 0)

/-- ed.peg.go:370-392 `Error`; `quote` is `strconv.Quote`. Slicing the buffer panics unless the token lies in it. -/
def errorText (quote : Bytes → Bytes) (buffer : Bytes) (m : MaxTok) : M Bytes :=
  let rs := runes buffer ++ [endSymbol]
  let table := translate (if m.b ≤ m.e then [m.b, m.e] else [m.e, m.b]) 0 1 0 rs
  let p := position table m.b
  let q := position table m.e
  if m.b ≤ m.e ∧ m.e ≤ rs.length then
    .ok (b!"\nparse error near " ++ m.rule ++ b!" (line " ++ natToDec p.1 ++ b!" symbol " ++ natToDec p.2 ++ b!" - line " ++
      natToDec q.1 ++ b!" symbol " ++ natToDec q.2 ++ b!"):\n" ++ quote (ofRunes ((rs.drop m.b).take (m.e - m.b))) ++ b!"\n")
  else .error .index

end Ed
