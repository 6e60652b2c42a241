import Verif.Ed.Command
import Verif.Txt.Model
import Verif.Go.Lines
import Verif.Go.Strconv
import Verif.Go.Process

/-!
# pkg/ed/ed.go: the editor, without the command reader
-/

namespace Ed
open Go

/-- How a call can fail to return: a panic, or a loop that never ends. -/
inductive Fault where
  | panic (p : Panic)
  | hang
  deriving DecidableEq, Repr

/-- A computation that returns, panics or runs forever. -/
abbrev R (α : Type) := Except Fault α

/-- A computation that can only panic. -/
def lift {α : Type} : M α → R α
  | .ok a => .ok a
  | .error p => .error (.panic p)

/-- What the system calls of one `Write` answer. `none` is success; otherwise the error text.
`written` is how many bytes reach the temporary file when writing it fails (`none`: it could not even
be opened), `removed` whether `os.Remove` works. `noFile` is the error of `os.Stat` for a name without a file. -/
structure Outcome where
  stat : Option Bytes := none
  noFile : Bytes := b!"stat: no such file or directory"
  writeFile : Option Bytes := none
  written : Option Nat := none
  rename : Option Bytes := none
  removed : Bool := true

/-- The outside world: `regexp.CompilePOSIX` and `Match`, the capacity `append` leaves after `n`
appends (at least `n`), the error text of `os.Open`, and the answers to the `k`-th `Write`. -/
structure Env where
  compile : Bytes → Option (Bytes → Bool)
  cap : Nat → Nat
  openErr : Bytes → Bytes
  outcome : Nat → Outcome

/-- ed.go:25-30 `Itor` together with the file system and the number of `Write` calls so far.
(`modified` is never used.) Opening a file takes a snapshot of its contents. -/
structure State where
  pt : Txt.PieceTable
  filename : Bytes
  currentLine : Int
  fs : FS
  writes : Nat

/-- ed.go:160-168: the lines of the scanner, a panic if it reports an error. -/
def scanned (s : State) : M (List Bytes) :=
  match s.pt.string with
  | .error p => .error p
  | .ok t => if (scanLines t).2 then .error .explicit else .ok (scanLines t).1

/-- ed.go:170-174: one empty line at the end is removed. -/
def dropBlank (ls : List Bytes) : List Bytes := if ls.getLast? = some [] then ls.dropLast else ls

/-- ed.go:160-176 `getLines`. -/
def getLines (s : State) : M (List Bytes) :=
  match scanned s with
  | .error p => .error p
  | .ok ls => .ok (dropBlank ls)

/-- ed.go:162-165: the capacity of the slice of lines after `n` appends to the nil slice. -/
def room (env : Env) (n : Nat) : Nat := if n = 0 then 0 else max n (env.cap n)

/-- ed.go:105-108 `Print`. The slice may reach into the spare capacity, whose elements are empty
strings. -/
def print (env : Env) (s : State) (start end_ : Int) : M Bytes :=
  match scanned s with
  | .error p => .error p
  | .ok ls =>
    let full := dropBlank ls ++ List.replicate (room env ls.length - (dropBlank ls).length) []
    match slice full (wrap64 (start - 1)) end_ with
    | .error p => .error p
    | .ok xs => .ok (join [nl] xs)

/-- ed.go:113-115: the loop of `number` from line `i` on, given the lines from index `i-1` on. -/
def numberLoop (end_ : Int) (i : Int) : List Bytes → M Bytes
  | [] => if i > end_ then .ok [] else .error .index
  | l :: ls =>
    if i > end_ then .ok [] else
    match numberLoop end_ (i + 1) ls with
    | .error p => .error p
    | .ok r => .ok (itoa i ++ [9] ++ l ++ [nl] ++ r)

/-- ed.go:110-117 `number`. -/
def number (s : State) (start end_ : Int) : M Bytes :=
  match getLines s with
  | .error p => .error p
  | .ok ls =>
    if start > end_ then .ok []
    else if start < 1 then .error .index
    else numberLoop end_ start (ls.drop (start - 1).toNat)

/-- ed.go:120-127 `String`. -/
def string (s : State) : M Bytes :=
  match s.pt.string with
  | .error p => .error p
  | .ok t =>
    match t.getLast? with
    | none => .error .index
    | some c => .ok (if c = nl then t else t ++ [nl])

/-- The byte length of lines with their newlines (the sums of ed.go:149-157). -/
def width : List Bytes → Nat
  | [] => 0
  | l :: ls => l.length + 1 + width ls

/-- ed.go:145-158 `getLineAddr`. (Sums of line lengths are taken not to overflow.) -/
def getLineAddr (s : State) (num : Int) : M Int :=
  match getLines s with
  | .error p => .error p
  | .ok ls =>
    if num > ls.length then .ok (width ls)
    else
      let k := (wrap64 (num - 1)).toNat
      if k ≤ ls.length then .ok (width (ls.take k)) else .error .index

/-- ed.go:129-132 `insertBeforeLine`. -/
def insertBeforeLine (s : State) (lineNum : Int) (text : Bytes) : M State :=
  match getLineAddr s lineNum with
  | .error p => .error p
  | .ok at_ =>
    match s.pt.insert (text ++ [nl]) at_ with
    | .error p => .error p
    | .ok pt => .ok { s with pt := pt }

/-- ed.go:136-142 `Delete`. -/
def delete (s : State) (start end_ : Int) : M State :=
  match getLineAddr s start with
  | .error p => .error p
  | .ok a =>
    match getLineAddr s (wrap64 (end_ + 1)) with
    | .error p => .error p
    | .ok b => .ok { s with pt := s.pt.delete (b - a) a }

/-- ed.go:80-102 `Edit`: the new state, and the error text if the file cannot be opened. (`Stat` on an
open file is taken to succeed; `force` has no effect.) -/
def edit (env : Env) (s : State) (name : Bytes) : M (State × Option Bytes) :=
  match s.fs name with
  | none => .ok (s, some (env.openErr name))
  | some contents =>
    let s' := { s with filename := name, pt := Txt.newPieceTable contents true contents.length }
    match getLines s' with
    | .error p => .error p
    | .ok ls => .ok ({ s' with currentLine := ls.length }, none)

/-! ## Saving -/

/-- A file system with one name set. -/
def setFile (fs : FS) (name : Bytes) (c : Option Bytes) : FS := fun n => if n = name then c else fs n

/-- ed.go:54: the name of the temporary file. -/
def tmpName (name : Bytes) : Bytes := name ++ b!".swp"

/-- ed.go:67, 72 `os.Remove(tmpName)`. -/
def removeTmp (o : Outcome) (fs : FS) (name : Bytes) : List FS :=
  if o.removed then [setFile fs (tmpName name) none] else []

/-- ed.go:57 `os.Stat`: it fails if there is no such file, and may fail otherwise. -/
def statError (o : Outcome) (fs : FS) (name : Bytes) : Option Bytes :=
  if fs name = none then some o.noFile else o.stat

/-- ed.go:56-74: the file systems that exist one after the other during the system calls of `Write`
(after the initial one), and the error text. `ioutil.WriteFile` truncates or creates the file and then
writes; every prefix can be observed. Links are not modelled: the two names are different files. -/
def saveTrace (o : Outcome) (fs : FS) (name data : Bytes) : List FS × Option Bytes :=
  match statError o fs name with
  | some err => ([], some err)
  | none =>
    let partials (n : Nat) : List FS := (List.range (n + 1)).map (fun k => setFile fs (tmpName name) (some (data.take k)))
    match o.writeFile with
    | some err =>
      match o.written with
      | none => (removeTmp o fs name, some err)
      | some n => (partials n ++ removeTmp o (setFile fs (tmpName name) (some (data.take n))) name, some err)
    | none =>
      let full := setFile fs (tmpName name) (some data)
      match o.rename with
      | some err => (partials data.length ++ removeTmp o full name, some err)
      | none => (partials data.length ++ [setFile (setFile full name (some data)) (tmpName name) none], none)

/-- The last file system of a trace. -/
def finalFS (fs : FS) (tr : List FS) : FS := tr.getLast?.getD fs

/-- ed.go:48-77 `Write`. (The line it prints to the standard output is in `Verif.Ed.Process`.) -/
def write (env : Env) (s : State) : M (State × Option Bytes) :=
  match s.pt.string with
  | .error p => .error p
  | .ok data =>
    let o := env.outcome s.writes
    let tr := saveTrace o s.fs s.filename data
    let s' := { s with pt := s.pt.close, fs := finalFS s.fs tr.1, writes := s.writes + 1 }
    match tr.2 with
    | some err => .ok (s', some err)
    | none => edit env s' s'.filename

/-! ## Addresses -/

/-- ed.go:187-195: the loop of `regexMatch`. The bound is reached only if the loop would run forever
(`C64_search_diverges`). -/
def searchLoop (m : Bytes → Bool) (lines : List Bytes) (cur : Int) : Nat → Int → Option (M (Int × Bool))
  | 0, _ => none
  | fuel + 1, n =>
    if n < 1 then some (.error .index) else
    match lines[(n - 1).toNat]? with
    | none => some (.error .index)
    | some l =>
      if m l then some (.ok (n, true))
      else if n = cur then some (.ok (-1, false))
      else searchLoop m lines cur fuel (n.tmod lines.length + 1)

/-- ed.go:178-197 `regexMatch`. -/
def regexMatch (env : Env) (s : State) (re : Bytes) : R (Int × Bool) :=
  match getLines s with
  | .error p => .error (.panic p)
  | .ok lines =>
    match env.compile re with
    | none => .ok (-1, false)
    | some m =>
      if lines.length = 0 then .error (.panic .divZero)
      else
        match searchLoop m lines s.currentLine lines.length (s.currentLine.tmod lines.length + 1) with
        | none => .error .hang
        | some r => lift r

/-- `strings.Trim(s, "/")`. -/
def trimSlash (t : Bytes) : Bytes := ((t.dropWhile (· == 47)).reverse.dropWhile (· == 47)).reverse

/-- ed.go:258-284 `addrLine`. -/
def addrLine (env : Env) (s : State) (a : Address) : R Int :=
  match a.typ with
  | .current => .ok (wrap64 (s.currentLine + a.offset))
  | .num => .ok (wrap64 ((atoi a.text).1 + a.offset))
  | .last =>
    match getLines s with
    | .error p => .error (.panic p)
    | .ok ls => .ok (wrap64 (ls.length + a.offset))
  | .regex =>
    match regexMatch env s (trimSlash a.text) with
    | .error f => .error f
    | .ok r => .ok (wrap64 (r.1 + a.offset))
  | _ => .error (.panic .explicit)

/-- ed.go:286-294 `linesIn`. -/
def linesIn (t : Bytes) : Nat := 1 + t.count nl

/-- ed.go:296-357 `processCommand`. (The code evaluates the addresses of one call before making it.) -/
def processCommand (env : Env) (s : State) (cmd0 : Command) : R (State × Bytes) :=
  let cmd := setDefaultAddresses cmd0
  match cmd.typ with
  | .edit => do
    let r ← lift (edit env s (cmd.params.headD []))
    return (r.1, r.2.getD [])
  | .print => do
    let a ← addrLine env s cmd.start
    let b ← addrLine env s cmd.end_
    let t ← lift (print env s a b)
    return (s, t)
  | .number => do
    let a ← addrLine env s cmd.start
    let b ← addrLine env s cmd.end_
    let t ← lift (number s a b)
    return (s, t)
  | .null => do
    let a ← addrLine env s cmd.start
    let s := { s with currentLine := a }
    let t ← lift (print env s a a)
    return (s, t)
  | .write => do
    let r ← lift (write env s)
    return (r.1, match r.2 with | none => [] | some err => 63 :: err)
  | .delete => do
    let a ← addrLine env s cmd.start
    let b ← addrLine env s cmd.end_
    let s ← lift (delete s a b)
    let c ← addrLine env s cmd.start
    return ({ s with currentLine := c }, [])
  | .append => do
    let a ← addrLine env s cmd.start
    let s ← lift (insertBeforeLine s (wrap64 (a + 1)) cmd.text)
    return ({ s with currentLine := wrap64 (wrap64 (a + 1) + linesIn cmd.text) }, [])
  | .insert => do
    let a ← addrLine env s cmd.start
    let s ← lift (insertBeforeLine s a cmd.text)
    return (s, [])
  | .change => do
    let a ← addrLine env s cmd.start
    let b ← addrLine env s cmd.end_
    let s ← lift (delete s a b)
    let c ← addrLine env s cmd.start
    let s ← lift (insertBeforeLine s c cmd.text)
    let d ← addrLine env s cmd.start
    return ({ s with currentLine := wrap64 (d + linesIn cmd.text) }, [])
  | .lineNumber => do
    let a ← addrLine env s cmd.start
    return (s, itoa a)
  | _ => .ok (s, b!"? (NYI)")

end Ed
