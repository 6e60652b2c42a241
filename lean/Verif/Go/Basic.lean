import Lean.Elab.Term

/-!
# Go substrate: byte strings, panics

Trusted modelling conventions shared by all components.
-/

namespace Go

/-- A Go `string` or `[]byte`. -/
abbrev Bytes := List UInt8

/-- The kinds of run-time panic the modelled code can raise. -/
inductive Panic where
  /-- index or slice bound out of range, or negative `make` length -/
  | index
  /-- nil pointer dereference -/
  | nilDeref
  /-- integer division by zero -/
  | divZero
  /-- explicit `panic(...)` in the code -/
  | explicit
  deriving DecidableEq, Repr

/-- A computation that returns a value or panics. -/
abbrev M (α : Type) := Except Panic α

instance {ε α : Type} [DecidableEq ε] [DecidableEq α] : DecidableEq (Except ε α)
  | .ok a, .ok b => if h : a = b then isTrue (by rw [h]) else isFalse (by intro h'; cases h'; exact h rfl)
  | .error a, .error b =>
    if h : a = b then isTrue (by rw [h]) else isFalse (by intro h'; cases h'; exact h rfl)
  | .ok _, .error _ => isFalse (by intro h; cases h)
  | .error _, .ok _ => isFalse (by intro h; cases h)

end Go

open Lean in
/-- `b!"text"` is the list of the UTF-8 bytes of the literal (a Go string literal). -/
macro:max "b!" s:str : term => do
  let bytes := s.getString.toUTF8.toList
  let elems ← bytes.toArray.mapM fun b => do
    let n := Syntax.mkNumLit (toString b.toNat)
    `(($n : UInt8))
  `(([$elems,*] : List UInt8))

namespace Go

example : b!"a\n" = [97, 10] := rfl

/-- The newline byte. -/
abbrev nl : UInt8 := 10
/-- The carriage return byte. -/
abbrev cr : UInt8 := 13

/-- Go slice expression `xs[lo:hi]` on a slice whose capacity equals its length: panics unless
`0 ≤ lo ≤ hi ≤ len(xs)`. -/
def slice {α : Type} (xs : List α) (lo hi : Int) : M (List α) :=
  if 0 ≤ lo ∧ lo ≤ hi ∧ hi ≤ xs.length then .ok ((xs.take hi.toNat).drop lo.toNat)
  else .error .index

theorem slice_ok {α : Type} (xs : List α) (lo hi : Nat) (h1 : lo ≤ hi) (h2 : hi ≤ xs.length) :
    slice xs lo hi = .ok ((xs.take hi).drop lo) := by
  simp only [slice]
  rw [if_pos (by omega)]
  simp

end Go
