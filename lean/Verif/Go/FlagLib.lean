import Verif.Go.Process

/-!
# Go's package flag (`flag.CommandLine`, string and boolean flags)

Part of the trusted modelling of the standard library: `FlagSet.Parse` and `parseOne` of package `flag`,
`strconv.ParseBool`. The text of the usage message is a parameter of the callers.
-/

namespace Go.FlagLib
open Go

/-- The kind of a registered flag. -/
inductive Kind where
  | bool
  | string
  deriving DecidableEq, Repr

/-- What parsing a command line ends with: the assignments made so far together with the operands, an
error message, or a request for help. -/
inductive Result where
  | ok (set : List (Bytes × Bytes)) (args : List Bytes)
  | bad (msg : Bytes)
  | help
  deriving DecidableEq, Repr

/-- `strconv.ParseBool`: is the text accepted, and its value. -/
def parseBool (s : Bytes) : Option Bool :=
  if s = b!"1" ∨ s = b!"t" ∨ s = b!"T" ∨ s = b!"TRUE" ∨ s = b!"true" ∨ s = b!"True" then some true
  else if s = b!"0" ∨ s = b!"f" ∨ s = b!"F" ∨ s = b!"FALSE" ∨ s = b!"false" ∨ s = b!"False" then some false
  else none

/-- `name[1:]` up to an equals sign, and what follows it (`parseOne`: "equals cannot be first"). -/
def splitEq : Bytes → Bytes × Option Bytes
  | [] => ([], none)
  | c :: cs => if c = 61 then ([], some cs) else ((c :: (splitEq cs).1), (splitEq cs).2)

/-- The first part of `parseOne`: what one argument is. -/
inductive Arg where
  | operand
  | dashes
  | bad
  | flag (name : Bytes) (value : Option Bytes)
  deriving DecidableEq, Repr

/-- `parseOne` up to the split at the equals sign, for the name without its dashes. -/
def classifyName : Bytes → Arg
  | [] => .bad
  | c :: cs => if c = 45 ∨ c = 61 then .bad else .flag (c :: (splitEq cs).1) (splitEq cs).2

/-- `parseOne` up to the split at the equals sign. -/
def classify (s : Bytes) : Arg :=
  match s with
  | [] => .operand
  | [_] => .operand
  | c :: d :: rest =>
    if c ≠ 45 then .operand
    else if d = 45 then (if rest = [] then .dashes else classifyName rest)
    else classifyName (d :: rest)

/-- `FlagSet.Parse`: the registered flags are `formal`; the assignments are collected in order. A boolean
flag is assigned the text `true` or the text after the equals sign. -/
def parse (formal : Bytes → Option Kind) : List Bytes → List (Bytes × Bytes) → Result
  | [], set => .ok set []
  | s :: args, set =>
    match classify s with
    | .operand => .ok set (s :: args)
    | .dashes => .ok set args
    | .bad => .bad (b!"bad flag syntax: " ++ s)
    | .flag name value =>
      match formal name with
      | none => if name = b!"help" ∨ name = b!"h" then .help else .bad (b!"flag provided but not defined: -" ++ name)
      | some .bool =>
        match value with
        | none => parse formal args (set ++ [(name, b!"true")])
        | some v =>
          if parseBool v = none then .bad (b!"invalid boolean value for -" ++ name)
          else parse formal args (set ++ [(name, v)])
      | some .string =>
        match value with
        | some v => parse formal args (set ++ [(name, v)])
        | none =>
          match args with
          | [] => .bad (b!"flag needs an argument: -" ++ name)
          | v :: args => parse formal args (set ++ [(name, v)])

/-- The text last assigned to a flag. -/
def last (name : Bytes) (set : List (Bytes × Bytes)) : Option Bytes :=
  (set.reverse.find? (fun p => p.1 == name)).map (·.2)

end Go.FlagLib
