import Verif.Go.Strconv

/-!
# Go's strconv.ParseInt(s, 0, 64)

Part of the trusted modelling of the standard library. Since Go 1.13 the prefixes `0b` and `0o` and
underscores between digits are accepted as well; `modern` says which version it is.
-/

namespace Go.ParseInt
open Go

/-- `lower(c)` of package strconv. -/
def lower (c : UInt8) : UInt8 := c ||| 32

/-- The value of a digit in the widest base; `none` is a syntax error. -/
def digitOf (c : UInt8) : Option Nat :=
  if 48 ≤ c ∧ c ≤ 57 then some (c.toNat - 48)
  else if 97 ≤ lower c ∧ lower c ≤ 122 then some ((lower c).toNat - 97 + 10)
  else none

/-- The digit loop of `ParseUint`, with the underscores skipped; `none` is a syntax or range error. -/
def loop (modern : Bool) (base : Nat) (n : Nat) : Bytes → Option Nat
  | [] => some n
  | c :: cs =>
    if modern ∧ c = 95 then loop modern base n cs
    else
      match digitOf c with
      | none => none
      | some d =>
        if d ≥ base then none
        else if n * base + d ≥ 2 ^ 64 then none
        else loop modern base (n * base + d) cs

/-- The base and the digits of a text for base argument 0; `none` is a syntax error. -/
def split (modern : Bool) (s : Bytes) : Option (Nat × Bytes) :=
  match s with
  | [] => none
  | c0 :: rest =>
    if c0 ≠ 48 then some (10, c0 :: rest)
    else
      match rest with
      | [] => some (8, [])
      | c :: cs =>
        if modern then
          if cs ≠ [] ∧ lower c = 98 then some (2, cs)
          else if cs ≠ [] ∧ lower c = 111 then some (8, cs)
          else if cs ≠ [] ∧ lower c = 120 then some (16, cs)
          else some (8, c :: cs)
        else
          if c = 120 ∨ c = 88 then (if cs = [] then none else some (16, cs))
          else some (8, c :: cs)

/-- The loop of `underscoreOK`; `i` is the class of the previous character: 0 a digit, 1 an underscore,
2 anything else. -/
def underscoreLoop (hex : Bool) (i : Nat) : Bytes → Bool
  | [] => i != 1
  | c :: cs =>
    if (48 ≤ c ∧ c ≤ 57) ∨ (hex = true ∧ 97 ≤ lower c ∧ lower c ≤ 102) then underscoreLoop hex 0 cs
    else if c = 95 then (if i = 0 then underscoreLoop hex 1 cs else false)
    else if i = 1 then false
    else underscoreLoop hex 2 cs

/-- `underscoreOK` for a text without sign. -/
def underscoreOK (s : Bytes) : Bool :=
  match s with
  | 48 :: c :: cs =>
    if lower c = 98 ∨ lower c = 111 ∨ lower c = 120 then underscoreLoop (lower c == 120) 0 cs
    else underscoreLoop false 2 (48 :: c :: cs)
  | s => underscoreLoop false 2 s

/-- `strconv.ParseUint(s, 0, 64)`. -/
def parseUint0 (modern : Bool) (s : Bytes) : Option Nat :=
  match split modern s with
  | none => none
  | some (base, ds) =>
    match loop modern base 0 ds with
    | none => none
    | some n => if modern ∧ 95 ∈ ds ∧ ¬ underscoreOK s then none else some n

/-- The sign and range part of `ParseInt`. -/
def finish (neg : Bool) (r : Option Nat) : Option Int :=
  match r with
  | none => none
  | some n =>
    if neg then (if n > 2 ^ 63 then none else some (-(n : Int)))
    else if n ≥ 2 ^ 63 then none else some (n : Int)

/-- `strconv.ParseInt(s, 0, 64)`; `none` is an error. -/
def parseInt0 (modern : Bool) (s : Bytes) : Option Int :=
  match s with
  | [] => none
  | c :: cs =>
    if c = 43 then finish false (parseUint0 modern cs)
    else if c = 45 then finish true (parseUint0 modern cs)
    else finish false (parseUint0 modern (c :: cs))

end Go.ParseInt
