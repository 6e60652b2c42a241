import Verif.Ed.Links

/-! # Several editors saving one file at the same time (model)

Each editor carries out the system calls of its own save (pkg/ed/ed.go:48-74) in order; the calls of different editors come in
any order. The disk is that of `Verif.Ed.Links`. All editors use one name for the file, and so one temporary file. -/

namespace Ed.Race
open Go Links

/-- How far the save of an editor has got. -/
inductive Phase
  /-- pkg/ed/ed.go:57: before `os.Stat`. -/
  | start
  /-- pkg/ed/ed.go:62: the permissions are known. -/
  | checked (mode : BitVec 9)
  /-- pkg/ed/ed.go:65: `ioutil.WriteFile` has opened file number `fd` and written the first `off` bytes. -/
  | writing (fd off : Nat)
  /-- pkg/ed/ed.go:67, 72: about to remove the temporary file. -/
  | failing
  /-- pkg/ed/ed.go:60, 68, 73: the error is returned. -/
  | failed
  /-- pkg/ed/ed.go:76: the rename has succeeded. -/
  | ok
  deriving DecidableEq, Repr

/-- The disk and the editors. -/
structure World where
  disk : Disk
  phase : Nat → Phase

/-- The system calls of a save. `error` is a call that fails for reasons of its own (no space left, say);
`stuck` is a removal that fails. -/
inductive Act
  | stat
  | open
  | write (k : Nat)
  | rename
  | remove
  | error
  | stuck
  deriving DecidableEq, Repr

/-- The state of one editor set. -/
def setPhase (w : World) (i : Nat) (p : Phase) : World := { w with phase := fun j => if j = i then p else w.phase j }

/-- `write(2)`: the bytes go where the writer has got to in the file; if the file has become shorter in the meantime, the gap
is filled with null bytes. -/
def overwrite (old : Bytes) (off : Nat) (bs : Bytes) : Bytes :=
  (old ++ List.replicate (off - old.length) 0).take off ++ bs ++ old.drop (off + bs.length)

/-- pkg/ed/ed.go:48-74: editor `i`, whose text is `texts i`, makes its next system call. `none` if it is another call's turn.
`ioutil.WriteFile` calls `write(2)` until all bytes have arrived. The error of a failing `os.Remove` is ignored. What follows
the save (line 76) only reads and is left out. -/
def step (texts : Nat → Bytes) (umask : BitVec 9) (name : Bytes) (w : World) (i : Nat) (a : Act) : Option World :=
  match w.phase i, a with
  | .start, .stat =>
    match w.disk.resolve name with
    | some (.file j) => some (setPhase w i (.checked (w.disk.node j).mode))
    | _ => some (setPhase w i .failed)
  | .start, .error => some (setPhase w i .failed)
  | .checked m, .open =>
    match openTrunc umask m w.disk (tmpName name) with
    | some (d, j) => some (setPhase { w with disk := d } i (.writing j 0))
    | none => some (setPhase w i .failing)
  | .checked _, .error => some (setPhase w i .failing)
  | .writing j off, .write k =>
    if 0 < k ∧ off + k ≤ (texts i).length then
      let x : Node := { w.disk.node j with data := overwrite (w.disk.node j).data off (((texts i).drop off).take k) }
      some (setPhase { w with disk := setNode w.disk j x } i (.writing j (off + k)))
    else none
  | .writing _ off, .rename =>
    if off = (texts i).length then
      match w.disk.entry (tmpName name) with
      | some _ => some (setPhase { w with disk := rename w.disk (tmpName name) name } i .ok)
      | none => some (setPhase w i .failing)
    else none
  | .writing _ _, .error => some (setPhase w i .failing)
  | .failing, .remove => some (setPhase { w with disk := setEntry w.disk (tmpName name) none } i .failed)
  | .failing, .stuck => some (setPhase w i .failed)
  | _, _ => none

/-- Any number of calls, in the order in which they happen. -/
def run (texts : Nat → Bytes) (umask : BitVec 9) (name : Bytes) : World → List (Nat × Act) → Option World
  | w, [] => some w
  | w, (i, a) :: rest =>
    match step texts umask name w i a with
    | some w' => run texts umask name w' rest
    | none => none

/-- Before the saves. -/
def begin (d : Disk) : World := ⟨d, fun _ => .start⟩

end Ed.Race
