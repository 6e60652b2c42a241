import Verif.Cut.Model
import Verif.Go.FlagLib

/-!
# cmd/cut/main.go with its command line
-/

namespace Cut
open Go Go.FlagLib

/-- main.go:46-51: the registered flags. -/
def formal (name : Bytes) : Option Kind :=
  if name = b!"f" ∨ name = b!"b" ∨ name = b!"c" ∨ name = b!"d" then some .string
  else if name = b!"n" ∨ name = b!"s" then some .bool
  else none

/-- main.go:46-51: the values of the options after a successful `flag.Parse()`. -/
def options (set : List (Bytes × Bytes)) : Options where
  fields := (last b!"f" set).getD []
  bytes := (last b!"b" set).getD []
  chars := (last b!"c" set).getD []
  delim := (last b!"d" set).getD [9]
  noSplit := ((last b!"n" set).bind parseBool).getD false
  suppress := ((last b!"s" set).bind parseBool).getD false

/-- main.go:45-63 `main` for a command line. `flag.Parse` leaves with status 2 on an error and, asked for
help, with a status that depends on the version of Go (2 before 1.15, then 0). `usage` is the usage text. -/
def run (helpStatus : Nat) (usage : Bytes) (args : List Bytes) : Out :=
  match parse formal args [] with
  | .ok set _ => main (options set)
  | .bad msg => { stdout := [], stderr := msg ++ [nl] ++ usage, exit := 2 }
  | .help => { stdout := [], stderr := usage, exit := helpStatus }

end Cut
