import Verif.Ed.Editor
import Verif.Txt.Spec

/-!
# Specification: an editor whose buffer is a list of lines

Nothing here mentions byte offsets, piece tables or the code's helpers.
-/

namespace Ed
open Go

/-- The buffer and the current line of the reference editor. -/
structure LState where
  lines : List Bytes
  cur : Nat
  deriving DecidableEq, Repr

/-- Addresses of the reference editor. -/
inductive SAddr where
  | num (n : Nat)
  | dot
  | last
  deriving DecidableEq, Repr

/-- The line number an address stands for. -/
def SAddr.eval (st : LState) : SAddr → Nat
  | .num n => n
  | .dot => st.cur
  | .last => st.lines.length

/-- Commands of the reference editor; texts are lists of lines. -/
inductive SCmd where
  | append (a : SAddr) (t : List Bytes)
  | insert (a : SAddr) (t : List Bytes)
  | change (a b : SAddr) (t : List Bytes)
  | delete (a b : SAddr)
  | print (a b : SAddr)
  | number (a b : SAddr)
  | lineNo (a : SAddr)
  deriving DecidableEq, Repr

/-- Lines `a..b`, counted from 1. -/
def linesFrom (ls : List Bytes) (a b : Nat) : List Bytes := (ls.take b).drop (a - 1)

/-- The numbered lines starting with number `i`. -/
def numbered (i : Nat) : List Bytes → Bytes
  | [] => []
  | l :: ls => itoa i ++ [9] ++ l ++ [nl] ++ numbered (i + 1) ls

/-- The buffer after a command. -/
def SCmd.newLines (st : LState) : SCmd → List Bytes
  | .append a t => st.lines.take (a.eval st) ++ t ++ st.lines.drop (a.eval st)
  | .insert a t => st.lines.take (a.eval st - 1) ++ t ++ st.lines.drop (a.eval st - 1)
  | .change a b t => st.lines.take (a.eval st - 1) ++ t ++ st.lines.drop (b.eval st)
  | .delete a b => st.lines.take (a.eval st - 1) ++ st.lines.drop (b.eval st)
  | _ => st.lines

/-- The current line after a command. After `a` and `c` the code leaves it one past the last line of
the new text; after `d` it is the start address, looked up again. -/
def SCmd.newCur (st : LState) (c : SCmd) : Nat :=
  match c with
  | .append a t => a.eval st + 1 + t.length
  | .change a _ t => a.eval st + t.length
  | .delete a _ => a.eval { st with lines := c.newLines st }
  | _ => st.cur

/-- What a command prints. -/
def SCmd.output (st : LState) : SCmd → Bytes
  | .print a b => join [nl] (linesFrom st.lines (a.eval st) (b.eval st))
  | .number a b => numbered (a.eval st) (linesFrom st.lines (a.eval st) (b.eval st))
  | .lineNo a => itoa (a.eval st)
  | _ => []

/-- The state after a command. -/
def SCmd.next (st : LState) (c : SCmd) : LState := ⟨c.newLines st, c.newCur st⟩

/-- Buffers the editor represents faithfully: every line is delivered unchanged by the line scanner and
the last one is not blank. -/
structure Clean (ls : List Bytes) : Prop where
  plain : ∀ l ∈ ls, PlainLine l
  lastNe : ls.getLast? ≠ some []

/-- Text blocks: at least one line, every line plain. -/
structure TextOK (t : List Bytes) : Prop where
  ne : t ≠ []
  plain : ∀ l ∈ t, PlainLine l

/-- A range inside the buffer. -/
def InRange (st : LState) (a b : SAddr) : Prop :=
  1 ≤ a.eval st ∧ a.eval st ≤ b.eval st ∧ b.eval st ≤ st.lines.length

/-- When a command is in range and keeps the buffer clean. (`c` works in two steps, so what it leaves in
between must be clean too, and its start address must not be `$`, which is looked up again.) -/
def SCmd.Ok (st : LState) : SCmd → Prop
  | .append a t => a.eval st ≤ st.lines.length ∧ TextOK t
  | .insert a t => 1 ≤ a.eval st ∧ a.eval st ≤ st.lines.length + 1 ∧ TextOK t
  | .change a b t => InRange st a b ∧ a ≠ .last ∧ TextOK t ∧
      Clean (st.lines.take (a.eval st - 1) ++ st.lines.drop (b.eval st))
  | .delete a b => InRange st a b
  | .print a b => InRange st a b
  | .number a b => InRange st a b
  | .lineNo a => a.eval st < 2 ^ 63

/-- A session of the reference editor: all commands are in range and leave clean buffers of fewer than
2^62 lines. -/
def SessionOk : LState → List SCmd → Prop
  | _, [] => True
  | st, c :: cs =>
    c.Ok st ∧ Clean (c.newLines st) ∧ (c.newLines st).length < 2 ^ 62 ∧ SessionOk (c.next st) cs

/-- The last state of a session. -/
def sessionEnd : LState → List SCmd → LState
  | st, [] => st
  | st, c :: cs => sessionEnd (c.next st) cs

/-- The outputs of a session. -/
def sessionOutputs : LState → List SCmd → List Bytes
  | _, [] => []
  | st, c :: cs => c.output st :: sessionOutputs (c.next st) cs

/-! ## The link to the code -/

/-- An address structure says what a reference address says. -/
def Denotes (a : Address) : SAddr → Prop
  | .num n => a.typ = .num ∧ a.offset = 0 ∧ a.text ≠ [] ∧ (∀ c ∈ a.text, isDigit c = true) ∧ digitsVal a.text = n
  | .dot => a.typ = .current ∧ a.offset = 0
  | .last => a.typ = .last ∧ a.offset = 0

/-- A parsed command, after its omitted addresses have been filled in, says what a reference command
says. -/
def Says (c : Command) : SCmd → Prop
  | .append a t => c.typ = .append ∧ Denotes (setDefaultAddresses c).start a ∧ c.text = join [nl] t
  | .insert a t => c.typ = .insert ∧ Denotes (setDefaultAddresses c).start a ∧ c.text = join [nl] t
  | .change a b t => c.typ = .change ∧ Denotes (setDefaultAddresses c).start a ∧
      Denotes (setDefaultAddresses c).end_ b ∧ c.text = join [nl] t
  | .delete a b => c.typ = .delete ∧ Denotes (setDefaultAddresses c).start a ∧ Denotes (setDefaultAddresses c).end_ b
  | .print a b => c.typ = .print ∧ Denotes (setDefaultAddresses c).start a ∧ Denotes (setDefaultAddresses c).end_ b
  | .number a b => c.typ = .number ∧ Denotes (setDefaultAddresses c).start a ∧ Denotes (setDefaultAddresses c).end_ b
  | .lineNo a => c.typ = .lineNumber ∧ Denotes (setDefaultAddresses c).start a

/-- Command by command. -/
def SaysAll : List Command → List SCmd → Prop
  | [], [] => True
  | c :: cs, sc :: scs => Says c sc ∧ SaysAll cs scs
  | _, _ => False

/-- The editor's buffer reads as these lines. -/
structure Shows (s : State) (ls : List Bytes) : Prop where
  reach : Txt.Reachable s.pt
  text : s.pt.string = .ok (unlines ls)

/-- Commands executed one after the other: the last state and the results. -/
def runAll (env : Env) : State → List Command → R (State × List Bytes)
  | s, [] => .ok (s, [])
  | s, c :: cs =>
    match processCommand env s c with
    | .error f => .error f
    | .ok (s1, out) =>
      match runAll env s1 cs with
      | .error f => .error f
      | .ok (s2, outs) => .ok (s2, out :: outs)

end Ed
