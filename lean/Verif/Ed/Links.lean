import Verif.Ed.Editor

/-! # Saving on a disk with links and permissions (model)

`Verif.Ed.Editor` takes every name for a file of its own. Here names are entries of a directory: several may stand for one
file, and some may be symbolic links. Directories, owners, set-user-ID and the like, and the targets of relative links are not modelled. -/

namespace Ed.Links
open Go

/-- What a name stands for: a file, by number, or a symbolic link. -/
inductive Entry
  | file (ino : Nat)
  | link (target : Bytes)
  deriving DecidableEq, Repr

/-- A file: its contents and its nine permission bits. -/
structure Node where
  data : Bytes
  mode : BitVec 9
  deriving DecidableEq, Repr

/-- A disk: names, files, and the number the next file will get. -/
structure Disk where
  entry : Bytes → Option Entry
  node : Nat → Node
  next : Nat

/-- Where following a name ends: at a file, or at a name that does not exist. -/
inductive Place
  | file (ino : Nat)
  | missing (name : Bytes)
  deriving DecidableEq, Repr

/-- The kernel follows at most 40 symbolic links (`ELOOP`). -/
def follow (entry : Bytes → Option Entry) : Nat → Bytes → Option Place
  | n, name =>
    match entry name with
    | none => some (.missing name)
    | some (.file i) => some (.file i)
    | some (.link t) => match n with
      | 0 => none
      | n + 1 => follow entry n t

/-- Following a name on a disk. -/
def Disk.resolve (d : Disk) (name : Bytes) : Option Place := follow d.entry 40 name

/-- One name set. -/
def setEntry (d : Disk) (name : Bytes) (e : Option Entry) : Disk := { d with entry := fun n => if n = name then e else d.entry n }

/-- One file set. -/
def setNode (d : Disk) (i : Nat) (x : Node) : Disk := { d with node := fun j => if j = i then x else d.node j }

/-- pkg/ed/ed.go:65 `ioutil.WriteFile`: `os.OpenFile` with `O_WRONLY|O_CREATE|O_TRUNC`. A file that exists is emptied and
keeps its permissions; a new one gets those asked for without the bits of the umask. A dangling link creates its target. -/
def openTrunc (umask : BitVec 9) (mode : BitVec 9) (d : Disk) (name : Bytes) : Option (Disk × Nat) :=
  match d.resolve name with
  | none => none
  | some (.file i) => some (setNode d i { d.node i with data := [] }, i)
  | some (.missing n) =>
    some ({ setNode (setEntry d n (some (.file d.next))) d.next ⟨[], mode &&& ~~~umask⟩ with next := d.next + 1 }, d.next)

/-- `Write` on the open file, `k` bytes having arrived. -/
def written (d : Disk) (i : Nat) (data : Bytes) (k : Nat) : Disk := setNode d i { d.node i with data := data.take k }

/-- pkg/ed/ed.go:70 `os.Rename`: rename(2). If both names stand for the same file nothing happens. Symbolic links are not
followed. -/
def rename (d : Disk) (old new : Bytes) : Disk :=
  match d.entry old, d.entry new with
  | some (.file i), some (.file j) => if i = j then d else setEntry (setEntry d new (d.entry old)) old none
  | _, _ => setEntry (setEntry d new (d.entry old)) old none

/-- pkg/ed/ed.go:67, 72 `os.Remove`. -/
def remove (o : Outcome) (d : Disk) (name : Bytes) : List Disk := if o.removed then [setEntry d name none] else []

/-- pkg/ed/ed.go:54-74: the disks that exist one after the other during a save (after the initial one), and the error text.
(The errors of `os.Stat` and `os.OpenFile` for links that go round in circles have the texts of a missing file and of a
failing `WriteFile`.) -/
def save (o : Outcome) (umask : BitVec 9) (d : Disk) (name data : Bytes) : List Disk × Option Bytes :=
  match d.resolve name with
  | some (.file i) =>
    match o.stat with
    | some err => ([], some err)
    | none =>
      match openTrunc umask (d.node i).mode d (tmpName name) with
      | none => (remove o d (tmpName name), some (o.writeFile.getD o.noFile))
      | some (d1, j) =>
        let partials (n : Nat) : List Disk := (List.range (n + 1)).map (written d1 j data)
        match o.writeFile with
        | some err =>
          match o.written with
          | none => (remove o d (tmpName name), some err)
          | some n => (partials n ++ remove o (written d1 j data n) (tmpName name), some err)
        | none =>
          let full := written d1 j data data.length
          match o.rename with
          | some err => (partials data.length ++ remove o full (tmpName name), some err)
          | none => (partials data.length ++ [rename full (tmpName name) name], none)
  | _ => ([], some o.noFile)

/-- The last disk of a trace. -/
def final (d : Disk) (tr : List Disk) : Disk := tr.getLast?.getD d

/-- pkg/ed/ed.go:80-88 `os.Open` and reading: what a name shows. -/
def Disk.read (d : Disk) (name : Bytes) : Option Bytes :=
  match d.resolve name with
  | some (.file i) => some (d.node i).data
  | _ => none

/-- `os.Stat`: the permissions seen under a name. -/
def Disk.mode (d : Disk) (name : Bytes) : Option (BitVec 9) :=
  match d.resolve name with
  | some (.file i) => some (d.node i).mode
  | _ => none

end Ed.Links
