import Verif.Txt.Model

/-!
# Specification vocabulary for the piece table

Nothing here refers to pieces: a table is observed through `String()`.
-/

namespace Txt
open Go

/-- The calls a user can make. -/
inductive Op where
  | insert (text : Bytes) (at_ : Int)
  | delete (length at_ : Int)
  deriving Repr

/-- Perform one call. -/
def PieceTable.apply (pt : PieceTable) : Op → M PieceTable
  | .insert x a => pt.insert x a
  | .delete n a => .ok (pt.delete n a)

/-- Perform a history of calls. -/
def PieceTable.run (pt : PieceTable) : List Op → M PieceTable
  | [] => .ok pt
  | o :: os => do (← pt.apply o).run os

/-- The tables a program can get hold of: `NewPieceTable` of a source with at least `length`
bytes, then any history of calls with non-negative arguments that did not panic. Deletes may even
reach past the end, as long as the end of the range is a 64-bit integer (see `C05_overflow` for
what happens otherwise). -/
inductive Reachable : PieceTable → Prop
  | new (src : Bytes) (closable : Bool) (length : Nat) (h : length ≤ src.length) :
      Reachable (newPieceTable src closable length)
  | insert {pt pt'} (x : Bytes) (a : Int) (ha : 0 ≤ a) :
      Reachable pt → pt.insert x a = .ok pt' → Reachable pt'
  | delete {pt} (n a : Int) (hn : 0 ≤ n) (ha : 0 ≤ a) :
      Reachable pt → (a + n < 2 ^ 63 ∨ ∃ t, pt.string = .ok t ∧ a + n ≤ t.length) → Reachable (pt.delete n a)

/-- The plain text edit an operation stands for: `none` if it is out of range. -/
def Op.onText (t : Bytes) : Op → Option Bytes
  | .insert x a =>
    if 0 ≤ a ∧ a ≤ t.length then some (t.take a.toNat ++ x ++ t.drop a.toNat) else none
  | .delete n a =>
    if 0 ≤ n ∧ 0 ≤ a ∧ a + n ≤ t.length then
      some (t.take a.toNat ++ t.drop (a.toNat + n.toNat)) else none

/-- A history on plain text. -/
def textRun (t : Bytes) : List Op → Option Bytes
  | [] => some t
  | o :: os => (o.onText t).bind (textRun · os)

end Txt
