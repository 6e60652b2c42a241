import Verif.Go.Lines

/-!
# Programs seen from outside

What a command leaves behind: the bytes on its two output streams and its exit status. A file system
is a map from names to contents; `none` stands for a name that `os.Open` refuses. Reading an open
file to its end is one step here and does not fail; the files `Arrival.lean` of the commands have readers that deliver
their bytes piece by piece and may fail (C113, C114).
-/

namespace Go

/-- What a terminated process has printed, and its exit status. -/
structure Out where
  stdout : Bytes
  stderr : Bytes
  exit : Nat
  deriving DecidableEq, Repr

/-- Files that can be opened, with their contents. -/
abbrev FS := Bytes → Option Bytes

end Go
