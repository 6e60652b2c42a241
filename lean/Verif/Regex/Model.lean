import Verif.Go.Utf8
import Verif.Go.Strconv

/-!
# pkg/regexes/bre.go, pkg/regexes/bre_evaluate.go

Runes are natural numbers. `int` counts come from `Atoi` of digits, so they are natural numbers below
2^63.
-/

namespace Regex
open Go

/-- `math.MaxInt` of github.com/shenwei356/util/math, on a 64-bit machine (bre.go:8). -/
@[irreducible] def maxInt : Nat := 2 ^ 63 - 1

/-- bre.go:49-82: the implementations of `breElement` that `ParseBre` constructs. (`breParen`,
bre.go:84-98, is never constructed.) -/
inductive Atom where
  | plain (c : Nat)
  | wildcard
  | bracket (chars : List Nat)
  deriving DecidableEq, Repr

/-- bre.go:59-61, 66, 75-82: the `Matches` methods. -/
def Atom.matches : Atom → Nat → Bool
  | .plain c, r => c == r
  | .wildcard, _ => true
  | .bracket chars, r => chars.any (fun c => r == c)

/-- bre.go:39-43 `breCount`; `thrifty` is never set. -/
structure Count where
  min : Nat
  max : Nat
  deriving DecidableEq, Repr

/-- bre.go:30-33 `breDuplElement`. -/
structure Elem where
  atom : Atom
  count : Count
  deriving DecidableEq, Repr

/-- bre.go:22-28 `Bre`; `text` is never set. -/
structure Bre where
  anchorLeft : Bool := false
  anchorRight : Bool := false
  elements : List Elem := []
  deriving DecidableEq, Repr

/-- bre.go:219-228: the loop of `readUntil`, from position `j`. -/
def readLoop (stop : Nat) (j : Nat) : List Nat → Option Nat
  | [] => none
  | c :: rest =>
    if c = 92 then
      match rest with
      | [] => none
      | _ :: rest => readLoop stop (j + 2) rest
    else if c = stop then some j
    else readLoop stop (j + 1) rest

/-- bre.go:215-230 `readUntil`; `none` is the error result. -/
def readUntil (runes : List Nat) (stop : Nat) : M (Option Nat) :=
  match runes with
  | [] => .error .index
  | c :: rest => if c = stop then .ok (some 0) else .ok (readLoop stop 0 (c :: rest))

/-- bre.go:11: the character class `\d`. -/
def isDigitRune (r : Nat) : Bool := 48 ≤ r && r ≤ 57

/-- bre.go:11, 113: `breCountRe.FindStringSubmatch`: the digits, whether there is a comma, and the
digits after it. -/
def countRe (s : List Nat) : Option (List Nat × Bool × List Nat) :=
  if s.takeWhile isDigitRune = [] then none
  else
    match s.dropWhile isDigitRune with
    | [] => some (s.takeWhile isDigitRune, false, [])
    | c :: r => if c = 44 ∧ r.all isDigitRune then some (s.takeWhile isDigitRune, true, r) else none

/-- bre.go:13-19 `mustBeInt`, on runes. -/
def mustBeInt (s : List Nat) : M Nat :=
  match atoi? (ofRunes s) with
  | some n => .ok n.toNat
  | none => .error .explicit

/-- bre.go:117-131: the count from the submatches. -/
def countOf (d : List Nat) (comma : Bool) (d2 : List Nat) : M Count :=
  match mustBeInt d with
  | .error e => .error e
  | .ok m =>
    if comma = false then .ok ⟨m, m⟩
    else if d2 = [] then .ok ⟨m, maxInt⟩
    else
      match mustBeInt d2 with
      | .error e => .error e
      | .ok n => .ok ⟨m, n⟩

/-- bre.go:107-133: the case `{` of `parseCount`. -/
def parseBraces (rest : List Nat) : M (Count × Nat) :=
  match readUntil rest 125 with
  | .error e => .error e
  | .ok none => .error .explicit
  | .ok (some n) =>
    match countRe (rest.take n) with
    | none => .error .explicit
    | some (d, comma, d2) =>
      match countOf d comma d2 with
      | .error e => .error e
      | .ok c => .ok (c, 2 + n)

/-- bre.go:100-156 `parseCount`. -/
def parseCount (runes : List Nat) : M (Count × Nat) :=
  match runes with
  | [] => .ok (⟨1, 1⟩, 0)
  | c :: rest =>
    if c = 123 then parseBraces rest
    else if c = 42 then .ok (⟨0, maxInt⟩, 1)
    else .ok (⟨1, 1⟩, 0)

/-- bre.go:182-203: the element that starts with the rune `r`, and how many runes after `r` it takes. -/
def parseAtom (r : Nat) (rest : List Nat) : M (Atom × Nat) :=
  if r = 91 then
    match readUntil rest 93 with
    | .error e => .error e
    | .ok none => .error .explicit
    | .ok (some n) => .ok (.bracket (rest.take n), n + 1)
  else if r = 46 then .ok (.wildcard, 0)
  else .ok (.plain r, 0)

/-- bre.go:180-210: the loop over the runes. -/
def parseElems (runes : List Nat) : M (List Elem) :=
  match runes with
  | [] => .ok []
  | r :: rest =>
    if r = 40 ∨ r = 41 then parseElems rest
    else
      match parseAtom r rest with
      | .error e => .error e
      | .ok (atom, used) =>
        match parseCount (rest.drop used) with
        | .error e => .error e
        | .ok (count, len) =>
          match parseElems ((rest.drop used).drop len) with
          | .error e => .error e
          | .ok es => .ok (⟨atom, count⟩ :: es)
termination_by runes.length
decreasing_by
  all_goals simp <;> omega

/-- bre.go:170-212: after the left anchor. -/
def parseRight (left : Bool) (runes : List Nat) : M Bre :=
  if runes = [] then .ok { anchorLeft := left }
  else
    let right := runes.getLast? = some 36
    match parseElems (if right then runes.dropLast else runes) with
    | .error e => .error e
    | .ok es => .ok { anchorLeft := left, anchorRight := right, elements := es }

/-- bre.go:159-213 `ParseBre`; the error result is always nil. -/
def parseBre (s : Bytes) : M Bre :=
  match runes s with
  | [] => .ok {}
  | r :: rest => if r = 94 then parseRight true rest else parseRight false (r :: rest)

/-- bre_evaluate.go:44-51: the counting loop at position `i` with `matched` so far; `none` is the early
return. -/
def countLoop (e : Elem) (i matched : Nat) : List Nat → Option Nat
  | [] => some matched
  | r :: rs =>
    if i < e.count.max then
      if e.atom.matches r then countLoop e (i + 1) (matched + 1) rs
      else if matched < e.count.min then none
      else countLoop e (i + 1) matched rs
    else some matched

/-- bre_evaluate.go:54-60: trying `i`, `i - 1`, ..., `min` runes for the first element, `f` being the
match of the other elements. -/
def backtrack (f : List Nat → Bool × Nat) (min : Nat) (rs : List Nat) : Nat → Bool × Nat
  | 0 => if min = 0 ∧ (f rs).1 then (true, (f rs).2) else (false, 0)
  | i + 1 =>
    if i + 1 < min then (false, 0)
    else if (f (rs.drop (i + 1))).1 then (true, (f (rs.drop (i + 1))).2 + (i + 1))
    else backtrack f min rs i

/-- bre_evaluate.go:33-61 `elementsMatch`. -/
def elementsMatch : List Elem → List Nat → Bool × Nat
  | [], rs => (true, rs.length)
  | e :: es, rs =>
    match countLoop e 0 0 rs with
    | none => (false, 0)
    | some matched => backtrack (elementsMatch es) e.count.min rs matched

/-- bre_evaluate.go:18-27: the loop over start positions. -/
def searchLoop (b : Bre) : List Nat → Bool
  | [] => false
  | r :: rs =>
    let m := elementsMatch b.elements (r :: rs)
    if m.1 = true ∧ ¬ (b.anchorRight = true ∧ m.2 ≠ (r :: rs).length) then true
    else searchLoop b rs

/-- bre_evaluate.go:4-30 `Matches`. -/
def Bre.matches (b : Bre) (input : Bytes) : Bool :=
  let rs := runes input
  if b.anchorLeft = true ∨ input.length = 0 then
    let m := elementsMatch b.elements rs
    if m.1 = false then false
    else if b.anchorRight then decide (m.2 = rs.length)
    else true
  else searchLoop b rs

end Regex
