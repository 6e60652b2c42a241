import Verif.Ed.EndToEnd
import Verif.Ed.SearchProps

/-!
# Specification: command lines typed at an editor whose buffer is a list of lines

A reference editor for command lines with any of the address forms, omitted addresses, searches, the empty
command, unsupported commands and `w` anywhere. Nothing here mentions byte offsets, piece tables or channels.
-/

namespace Ed
open Go

/-- What a command line asks for. -/
inductive Verb where
  | print
  | number
  | delete
  | equals
  /-- no letter: go to the line and print it -/
  | null
  | write
  | append (t : List Bytes)
  | insert (t : List Bytes)
  | change (t : List Bytes)
  /-- take up another file -/
  | edit (name : Bytes)
  /-- a command the editor knows but does not carry out -/
  | unsupported (letter : UInt8)
  deriving DecidableEq, Repr

/-- A command line: its address part as written, and what it asks for. -/
structure TCmd where
  range : RangeSyn
  verb : Verb
  deriving DecidableEq, Repr

/-- The lines typed for a command. -/
def TCmd.typed (c : TCmd) : List Bytes :=
  match c.verb with
  | .print => [c.range.bytes ++ b!"p"]
  | .number => [c.range.bytes ++ b!"n"]
  | .delete => [c.range.bytes ++ b!"d"]
  | .equals => [c.range.bytes ++ b!"="]
  | .null => [c.range.bytes]
  | .write => [c.range.bytes ++ b!"w"]
  | .append t => (c.range.bytes ++ b!"a") :: (t ++ [b!"."])
  | .insert t => (c.range.bytes ++ b!"i") :: (t ++ [b!"."])
  | .change t => (c.range.bytes ++ b!"c") :: (t ++ [b!"."])
  | .edit n => [b!"e " ++ n]
  | .unsupported l => [c.range.bytes ++ [l]]

/-- An address without a search, mark or offset. -/
def AddrSyn.NoSearch : AddrSyn → Prop
  | .lit _ | .dot | .dollar => True
  | _ => False

/-- An address part without searches and without `;`. -/
def RangeSyn.Direct : RangeSyn → Prop
  | .none => True
  | .one a _ => a.NoSearch
  | .both semi a _ _ b _ => semi = false ∧ a.NoSearch ∧ b.NoSearch
  | .startOnly semi a _ => semi = false ∧ a.NoSearch
  | .endOnly semi _ b _ => semi = false ∧ b.NoSearch
  | .all semi => semi = false

/-- An address part without blanks at its end. -/
def RangeSyn.Tight : RangeSyn → Prop
  | .one _ w => w = []
  | _ => True

/-- Well-formed command lines. `=`, `a`, `i` and the empty command take at most one address; `=` no blank after
it; the commands with text no search and no `;`; `e` no address. -/
def TCmd.WF (c : TCmd) : Prop :=
  c.range.OK ∧
  match c.verb with
  | .equals => c.range.Simple ∧ c.range.Tight
  | .null => c.range.Simple
  | .append t | .insert t => c.range.Simple ∧ c.range.Direct ∧ Typeable t
  | .change t => c.range.Direct ∧ Typeable t
  | .edit n => c.range = .none ∧ NameOK n
  | .unsupported l => (c.range = .none ∧ l ∈ b!"hHPQu") ∨ l ∈ b!"jl"
  | _ => True

/-- The buffer, the current line, the name of the file being edited and all the files, of the reference editor. -/
structure RState where
  lines : List Bytes
  cur : Nat
  name : Bytes
  files : Bytes → Option Bytes

/-- The files after saving `text` as `name`. What was in a file of that name with `.swp` at its end is gone. -/
def saved (files : Bytes → Option Bytes) (name text : Bytes) : Bytes → Option Bytes :=
  fun n => if n = name ++ b!".swp" then none else if n = name then some text else files n

/-- The first line after the current one that matches, going round. -/
def nextMatch (m : Bytes → Bool) (ls : List Bytes) (cur : Nat) : Option Nat :=
  ((List.range ls.length).map (fun k => around ls.length (cur + 1 + k))).find? (fun n => (ls[n - 1]?).any m)

/-- The line an address stands for; `comp` gives the meaning of patterns. Marks, backward searches, offsets and
patterns that end in an escaped slash are given no line: no session below uses them (C76, C89, C105). -/
def AddrSyn.line (comp : Bytes → Option (Bytes → Bool)) (ls : List Bytes) (cur : Nat) : AddrSyn → Option Nat
  | .lit ds => some (digitsVal ds)
  | .dot => some cur
  | .dollar => some ls.length
  | .re body => if body.getLast? = some 47 then none else (comp body).bind (fun m => nextMatch m ls cur)
  | .mark _ | .back _ | .off .. => none

/-- The first line of an address part; `d` is the line meant if there is none. -/
def RangeSyn.first (comp : Bytes → Option (Bytes → Bool)) (ls : List Bytes) (cur d : Nat) : RangeSyn → Option Nat
  | .none => some d
  | .one a _ | .both _ a _ _ _ _ | .startOnly _ a _ => a.line comp ls cur
  | .endOnly semi _ _ _ | .all semi => some (if semi then cur else 1)

/-- The last line of an address part. -/
def RangeSyn.last (comp : Bytes → Option (Bytes → Bool)) (ls : List Bytes) (cur d : Nat) : RangeSyn → Option Nat
  | .none => some d
  | .one a _ | .startOnly _ a _ => a.line comp ls cur
  | .both _ _ _ _ b _ | .endOnly _ _ b _ => b.line comp ls cur
  | .all _ => some ls.length

/-- The address part starts with `$`. -/
def RangeSyn.fromLast : RangeSyn → Prop
  | .one a _ | .both _ a _ _ _ _ | .startOnly _ a _ => a = .dollar
  | _ => False

/-- What a command does: the state before, the state after and the result. The current line after a command is
the one the code leaves: unchanged by `p`, `n`, `i` and `=`; the first address, looked up again, after `d`; one
past the new text after `a` and `c`; the last after `w` and `e`. -/
inductive Does (comp : Bytes → Option (Bytes → Bool)) (openErr : Bytes → Bytes) : TCmd → RState → RState → Bytes → Prop
  | print {r st a b} : r.first comp st.lines st.cur st.cur = some a → r.last comp st.lines st.cur st.cur = some b →
      1 ≤ a → a ≤ b → b ≤ st.lines.length →
      Does comp openErr ⟨r, .print⟩ st st (join [nl] (linesFrom st.lines a b))
  | number {r st a b} : r.first comp st.lines st.cur st.cur = some a → r.last comp st.lines st.cur st.cur = some b →
      1 ≤ a → a ≤ b → b ≤ st.lines.length →
      Does comp openErr ⟨r, .number⟩ st st (numbered a (linesFrom st.lines a b))
  | equals {r st} {a : Nat} : r.first comp st.lines st.cur st.lines.length = some a → a < 2 ^ 63 →
      Does comp openErr ⟨r, .equals⟩ st st (itoa a)
  | null {r st a} {l : Bytes} : r.first comp st.lines st.cur (st.cur + 1) = some a → 1 ≤ a → st.lines[a - 1]? = some l →
      Does comp openErr ⟨r, .null⟩ st { st with cur := a } l
  | delete {r st a b c pre mid post} : r.first comp st.lines st.cur st.cur = some a → r.last comp st.lines st.cur st.cur = some b →
      st.lines = pre ++ mid ++ post → mid ≠ [] → a = pre.length + 1 → b = pre.length + mid.length →
      r.first comp (pre ++ post) st.cur st.cur = some c →
      Does comp openErr ⟨r, .delete⟩ st { st with lines := pre ++ post, cur := c } []
  | append {r st t pre post} : r.first comp st.lines st.cur st.cur = some pre.length → st.lines = pre ++ post → TextOK t →
      Does comp openErr ⟨r, .append t⟩ st { st with lines := pre ++ t ++ post, cur := pre.length + 1 + t.length } []
  | insert {r st t pre post} : r.first comp st.lines st.cur st.cur = some (pre.length + 1) → st.lines = pre ++ post → TextOK t →
      Does comp openErr ⟨r, .insert t⟩ st { st with lines := pre ++ t ++ post } []
  | change {r st t b pre mid post} : r.first comp st.lines st.cur st.cur = some (pre.length + 1) →
      r.last comp st.lines st.cur st.cur = some b → st.lines = pre ++ mid ++ post → mid ≠ [] → b = pre.length + mid.length →
      ¬ r.fromLast → TextOK t → Clean (pre ++ post) →
      Does comp openErr ⟨r, .change t⟩ st { st with lines := pre ++ t ++ post, cur := pre.length + 1 + t.length } []
  | write {r st} : st.files st.name ≠ none →
      Does comp openErr ⟨r, .write⟩ st { st with files := saved st.files st.name (unlines st.lines), cur := st.lines.length } []
  | edit {st name ls} : st.files name = some (unlines ls) →
      Does comp openErr ⟨.none, .edit name⟩ st { st with lines := ls, cur := ls.length, name := name } []
  | noFile {st name} : st.files name = none → Does comp openErr ⟨.none, .edit name⟩ st st (openErr name)
  | unsupported {r l st} : Does comp openErr ⟨r, .unsupported l⟩ st st b!"? (NYI)"

/-- A session: the commands one after the other, every buffer on the way clean and below 2^62 lines. -/
inductive Session (comp : Bytes → Option (Bytes → Bool)) (openErr : Bytes → Bytes) : List TCmd → RState → RState → List Bytes → Prop
  | nil {st} : Session comp openErr [] st st []
  | cons {c cs st st1 st2 o os} : Does comp openErr c st st1 o → Clean st1.lines → st1.lines.length < 2 ^ 62 →
      Session comp openErr cs st1 st2 os → Session comp openErr (c :: cs) st st2 (o :: os)

end Ed
