import Verif.Go.Process
import Verif.Go.Strconv
import Verif.Go.Quote

/-! # cmd/test/main.go, cmd/test/tests.go -/

namespace Test
open Go

/-- `os.FileInfo` as far as `test` looks at it: the bits of `os.FileMode` and the size. -/
structure FileInfo where
  mode : BitVec 32
  size : Int
  deriving DecidableEq, Repr

/-- `os.Stat` and `os.Lstat`; `none` stands for an error. -/
structure World where
  stat : Bytes → Option FileInfo
  lstat : Bytes → Option FileInfo

/-- The errors of `parse`. -/
inductive Err where
  /-- tests.go:38 -/
  | nyi
  /-- main.go:49 -/
  | unknown
  /-- tests.go:75, 79: an operand that is not an integer -/
  | num (operand : Bytes) (e : NumErr)
  deriving DecidableEq, Repr

/-- The constants of Go's package `os`, used in tests.go:45, 48-67. -/
def ModeDir : BitVec 32 := 1 <<< 31
def ModeSymlink : BitVec 32 := 1 <<< 27
def ModeDevice : BitVec 32 := 1 <<< 26
def ModeNamedPipe : BitVec 32 := 1 <<< 25
def ModeSocket : BitVec 32 := 1 <<< 24
def ModeSetuid : BitVec 32 := 1 <<< 23
def ModeSetgid : BitVec 32 := 1 <<< 22
def ModeCharDevice : BitVec 32 := 1 <<< 21
def ModeIrregular : BitVec 32 := 1 <<< 19
/-- `os.ModeType`, the mask of `FileMode.IsRegular` (tests.go:53). -/
def ModeType : BitVec 32 :=
  ModeDir ||| ModeSymlink ||| ModeNamedPipe ||| ModeSocket ||| ModeDevice ||| ModeCharDevice ||| ModeIrregular

abbrev Result := Except Err Bool

/-- tests.go:21-29 `info`. -/
def info (w : World) (f : FileInfo → Bool) (name : Bytes) : Result :=
  match w.stat name with
  | none => .ok false
  | some fi => .ok (f fi)

/-- tests.go:11-19 `modeIs`. -/
def modeIs (w : World) (fm : BitVec 32) (name : Bytes) : Result :=
  match w.stat name with
  | none => .ok false
  | some fi => .ok ((fi.mode &&& fm) == fm)

/-- tests.go:40-46 `isLink`. -/
def isLink (w : World) (name : Bytes) : Result :=
  match w.lstat name with
  | none => .ok false
  | some fi => .ok ((fi.mode &&& ModeSymlink) == ModeSymlink)

/-- tests.go:37-39 `nyi`. -/
def nyi (_ : Bytes) : Result := .error .nyi

/-- tests.go:48-67 `flagMap` (with tests.go:31-35 `noerr`). -/
def flagMap (w : World) (c : UInt8) : Option (Bytes → Result) :=
  if c = 97 then some (modeIs w ModeDevice)                                  -- 'a'
  else if c = 99 then some (modeIs w ModeCharDevice)                         -- 'c'
  else if c = 100 then some (info w fun i => (i.mode &&& ModeDir) != 0)      -- 'd'
  else if c = 101 then some (info w fun _ => true)                           -- 'e'
  else if c = 102 then some (info w fun i => (i.mode &&& ModeType) == 0)     -- 'f'
  else if c = 103 then some (modeIs w ModeSetgid)                            -- 'g'
  else if c = 104 then some (isLink w)                                       -- 'h'
  else if c = 76 then some (isLink w)                                        -- 'L'
  else if c = 110 then some (fun s => .ok (s != []))                         -- 'n'
  else if c = 112 then some (modeIs w ModeNamedPipe)                         -- 'p'
  else if c = 114 then some nyi                                              -- 'r'
  else if c = 83 then some (modeIs w ModeSocket)                             -- 'S'
  else if c = 115 then some (info w fun i => decide (i.size > 0))            -- 's'
  else if c = 116 then some nyi                                              -- 't'
  else if c = 117 then some (modeIs w ModeSetuid)                            -- 'u'
  else if c = 119 then some nyi                                              -- 'w'
  else if c = 120 then some nyi                                              -- 'x'
  else if c = 122 then some (fun s => .ok (s == []))                         -- 'z'
  else none

/-- tests.go:71-83 `numcmp`. -/
def numcmp (cmp : Int → Int → Bool) (a b : Bytes) : Result :=
  match atoi a with
  | (_, some e) => .error (.num a e)
  | (an, none) =>
    match atoi b with
    | (_, some e) => .error (.num b e)
    | (bn, none) => .ok (cmp an bn)

/-- tests.go:85-94 `infixMap`. -/
def infixMap (op : Bytes) : Option (Bytes → Bytes → Result) :=
  if op = b!"=" then some (fun a b => .ok (a == b))
  else if op = b!"!=" then some (fun a b => .ok (a != b))
  else if op = b!"-eq" then some (numcmp fun a b => a == b)
  else if op = b!"-ne" then some (numcmp fun a b => a != b)
  else if op = b!"-gt" then some (numcmp fun a b => decide (a > b))
  else if op = b!"-ge" then some (numcmp fun a b => decide (a ≥ b))
  else if op = b!"-lt" then some (numcmp fun a b => decide (a < b))
  else if op = b!"-le" then some (numcmp fun a b => decide (a ≤ b))
  else none

/-- main.go:37-41: the test a two-character flag stands for. -/
def flagOf (w : World) (arg : Bytes) : Option (Bytes → Result) :=
  match arg with
  | [d, c] => if d = 45 then flagMap w c else none
  | _ => none

/-- main.go:43-49: the part of `parse` after the flags. -/
def parseInfix (args : List Bytes) : Result :=
  match args with
  | [a, op, b] =>
    match infixMap op with
    | some f => f a b
    | none => .error .unknown
  | _ => .error .unknown

/-- main.go:32: `return !ok, err`; the value only matters when there is no error. -/
def neg : Result → Result
  | .ok b => .ok (!b)
  | .error e => .error e

/-- main.go:21-50 `parse`. -/
def parse (w : World) : List Bytes → Result
  | [] => .ok false
  | [a] => .ok (a != [])
  | arg :: a1 :: rest =>
    if arg = b!"!" then neg (parse w (a1 :: rest))
    else if arg = [] then .ok false
    else
      match flagOf w arg with
      | some f => f a1
      | none => parseInfix (arg :: a1 :: rest)

/-- The text of an error: tests.go:38, main.go:49, and `(*strconv.NumError).Error` (package strconv). -/
def Err.text (p : Nat → Bool) : Err → Bytes
  | .nyi => b!"NYI"
  | .unknown => b!"idk what to do about this"
  | .num s .syntax => b!"strconv.Atoi: parsing " ++ quote p s ++ b!": invalid syntax"
  | .num s .range => b!"strconv.Atoi: parsing " ++ quote p s ++ b!": value out of range"

/-- main.go:8-17 `main`; `p` says which characters outside ASCII are printable. -/
def main (p : Nat → Bool) (w : World) (args : List Bytes) : Out :=
  match parse w args with
  | .error e => ⟨[], b!"Error: " ++ e.text p ++ b!"\n", 2⟩
  | .ok false => ⟨[], [], 1⟩
  | .ok true => ⟨[], [], 0⟩

/-- main.go:8-17 `main`: the exit status. -/
def exitStatus (w : World) (args : List Bytes) : Nat :=
  match parse w args with
  | .error _ => 2
  | .ok false => 1
  | .ok true => 0

end Test
