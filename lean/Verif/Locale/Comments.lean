import Verif.Go.Trim
import Verif.Go.Strings

/-!
# Comment removal: model

`checkSpecialWord` and `removeComments` of /repo/pkg/locale/localelex.go.
-/

namespace Locale
open Go

/-- /repo/pkg/locale/localelex.go:489-499 `checkSpecialWord`: the new value of the character, if the line sets it.
(The slice in the code is in range because of the length test before it, so a prefix test is the same.) -/
def checkSpecialWord (line word : Bytes) : Option Nat :=
  if word.isPrefixOf line then
    match fields line with
    | [_, w] => some (decodeFirst w).1
    | _ => none
  else none

/-- /repo/pkg/locale/localelex.go:518-529: the inner loop of `removeComments`, joining line `l` with the following
lines. Gives the joined line and the lines after it. Going past the last line is an index panic. -/
def joinLine (esc : Nat) : Bytes → List Bytes → M (Bytes × List Bytes)
  | l, rest =>
    if l = [] then .ok (l, rest)
    else
      let d := decodeLast l
      if d.1 = runeError then .error .explicit
      else if d.1 ≠ esc then .ok (l, rest)
      else
        match rest with
        | [] => .error .index
        | next :: rest => joinLine esc (l.take (l.length - d.2) ++ trimSpace next) rest

/-- /repo/pkg/locale/localelex.go:508-539: the loop of `removeComments` over the lines, given the comment and escape
characters and what was written; the result is the text written and the final escape character (a package variable,
used by the lexer later). `WriteString` and `WriteRune` on a `strings.Builder` never fail. The loop variable moves on
by at least one line per round; the number of rounds is bounded by the first argument. -/
def cleanFuel : Nat → (comment esc : Nat) → Bytes → List Bytes → M (Bytes × Nat)
  | 0, _, esc, out, _ => .ok (out, esc)
  | _ + 1, _, esc, out, [] => .ok (out, esc)
  | n + 1, comment, esc, out, l :: rest =>
    if (decodeFirst l).1 = comment then cleanFuel n comment esc out rest
    else
      let comment := (checkSpecialWord l b!"comment_char").getD comment
      match checkSpecialWord l b!"escape_char" with
      | some e => cleanFuel n comment e out rest
      | none =>
        match joinLine esc l rest with
        | .error p => .error p
        | .ok (l, rest) => cleanFuel n comment esc (out ++ l ++ [nl]) rest

/-- /repo/pkg/locale/localelex.go:502-541 `removeComments`. -/
def removeComments (input : Bytes) : M (Bytes × Nat) :=
  let lines := split input [nl]
  cleanFuel (lines.length + 1) 35 92 [] lines

end Locale
