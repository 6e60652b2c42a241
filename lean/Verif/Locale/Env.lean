import Verif.Go.Lines
import Verif.Go.Strings
import Verif.Go.Strconv
import Verif.Go.Printf

/-!
# pkg/locale/locale.go, pkg/locale/time.go, cmd/locale/main.go
-/

namespace Locale
open Go

/-- locale.go:8-17 `Locale`. -/
structure Settings where
  lang : Bytes
  collate : Bytes
  ctype : Bytes
  messages : Bytes
  monetary : Bytes
  numeric : Bytes
  time : Bytes
  all : Bytes
  deriving DecidableEq, Repr

/-- locale.go:59-71 `FromEnv`; the argument is `os.Getenv` (empty for unset variables). -/
def fromEnv (env : Bytes → Bytes) : Settings :=
  { lang := env b!"LANG", collate := env b!"LC_COLLATE", ctype := env b!"LC_CTYPE", messages := env b!"LC_MESSAGES"
    monetary := env b!"LC_MONETARY", numeric := env b!"LC_NUMERIC", time := env b!"LC_TIME", all := env b!"LC_ALL" }

/-- locale.go:29-37 `getVal`. -/
def Settings.getVal (l : Settings) (val : Bytes) : Bytes :=
  if l.all ≠ [] then b!"\"" ++ l.all ++ b!"\""
  else if val ≠ [] then val
  else b!"\"" ++ l.lang ++ b!"\""

/-- locale.go:42-49: the table in `String`. -/
def Settings.table (l : Settings) : List (Bytes × Bytes) :=
  [(b!"LC_COLLATE", l.collate), (b!"LC_CTYPE", l.ctype), (b!"LC_MESSAGES", l.messages), (b!"LC_MONETARY", l.monetary),
   (b!"LC_NUMERIC", l.numeric), (b!"LC_TIME", l.time)]

/-- locale.go:39-57 `String`. (`Sprintf` with `%s` copies the string.) -/
def Settings.string (l : Settings) : Bytes :=
  (b!"LANG=\"" ++ l.lang ++ b!"\"\n") ++
  l.table.flatMap (fun s => s.1 ++ b!"=" ++ l.getVal s.2 ++ b!"\n") ++
  (b!"LC_ALL=" ++ l.all ++ b!"\n")

/-- cmd/locale/main.go:6-8 `main`: what is printed; the text is used as a format without operands. -/
def main (env : Bytes → Bytes) : Bytes := Printf0.printf0 (fromEnv env).string

/-! ## Eras -/

/-- time.go:34-41 `Era`. -/
structure Era where
  reverse : Bool := false
  offset : Int := 0
  startDate : Bytes := []
  endDate : Bytes := []
  name : Bytes := []
  format : Bytes := []
  deriving DecidableEq, Repr

/-- The errors of `NewEra`. -/
inductive EraErr where
  | fields
  | direction
  deriving DecidableEq, Repr

/-- time.go:51-84 `NewEra`. -/
def newEra (input : Bytes) : Except EraErr Era :=
  match split input b!":" with
  | p0 :: p1 :: p2 :: p3 :: p4 :: p5 :: ps =>
    let rest (reverse : Bool) : Except EraErr Era :=
      match atoi p1 with
      | (_, some _) => .ok {}
      | (n, none) =>
        .ok { reverse := reverse, offset := n, startDate := p2, endDate := p3, name := p4, format := join b!":" (p5 :: ps) }
    if p0 = b!"+" then rest false
    else if p0 = b!"-" then rest true
    else .error .direction
  | _ => .error .fields

end Locale
