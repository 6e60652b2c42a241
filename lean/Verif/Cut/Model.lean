import Verif.Go.Process

/-!
# cmd/cut/main.go

Parsing the command line is done by Go's package `flag`; its result is a parameter.
-/

namespace Cut
open Go

/-- main.go:25-43 `checkArgs`: the error message, if any. -/
def checkArgs (fields bytes chars _delim : Bytes) (_split _suppress : Bool) : Option Bytes :=
  let n0 := 0
  let n1 := if fields ≠ [] then n0 + 1 else n0
  let n2 := if bytes ≠ [] then n1 + 1 else n1
  let modesSpecified := if chars ≠ [] then n2 + 1 else n2
  if modesSpecified > 0 then some b!"only specify one of -f, -b, and -c"
  else if modesSpecified = 0 then some b!"gotta specify at least one of -f, -b, and -c"
  else none

/-- main.go:46-51: the values of the options. -/
structure Options where
  fields : Bytes := []
  bytes : Bytes := []
  chars : Bytes := []
  delim : Bytes := [9]
  noSplit : Bool := false
  suppress : Bool := false

/-- main.go:45-63 `main` after a successful `flag.Parse()`. -/
def main (o : Options) : Out :=
  match checkArgs o.fields o.bytes o.chars o.delim o.noSplit o.suppress with
  | some e => { stdout := [], stderr := b!"Error: " ++ e, exit := 1 }
  | none => { stdout := [], stderr := [], exit := 0 }

end Cut
