import Verif.Go.Basic

/-!
# pkg/ed/address.go, pkg/ed/command.go
-/

namespace Ed
open Go

/-- address.go:7-18 `addressType`. -/
inductive AddrType where
  | null | current | last | num | offset | regex | regexReverse | mark
  deriving DecidableEq, Repr

/-- address.go:20-24 `address`. -/
structure Address where
  typ : AddrType := .null
  text : Bytes := []
  offset : Int := 0
  deriving DecidableEq, Repr

/-- command.go:13-47 `cmdType`, in the order of the code. -/
inductive CmdType where
  | null | append | change | delete | edit | editForce | filename | global | interactive | help | helpMode
  | insert | join | mark | list | move | number | print | prompt | quit | quitForce | read | substitute | copy
  | undo | globalInverse | interactiveInverse | write | lineNumber | shell
  deriving DecidableEq, Repr

/-- command.go:4-11 `Command`. -/
structure Command where
  typ : CmdType := .null
  start : Address := {}
  end_ : Address := {}
  dest : Address := {}
  text : Bytes := []
  params : List Bytes := []
  deriving DecidableEq, Repr

/-- address.go:63 -/
def aCur : Address := ⟨.current, b!".", 0⟩
/-- address.go:64 -/
def aFirst : Address := ⟨.num, b!"1", 0⟩
/-- address.go:65 -/
def aLast : Address := ⟨.last, b!"$", 0⟩
/-- address.go:66 -/
def aCurPlusOne : Address := ⟨.current, b!".", 1⟩

/-- address.go:67-98 `defaultAddresses`. -/
def defaultAddresses : CmdType → Address × Address
  | .null => (aCurPlusOne, aCurPlusOne)
  | .global | .interactive | .globalInverse | .interactiveInverse | .write => (aCur, aLast)
  | .join => (aCur, aCurPlusOne)
  | .read | .lineNumber => (aLast, aLast)
  | _ => (aCur, aCur)

/-- address.go:100-109 `setDefaultAddresses`. -/
def setDefaultAddresses (cmd : Command) : Command :=
  if cmd.start.typ = .null then
    let d := defaultAddresses cmd.typ
    if cmd.end_.typ = .null then { cmd with start := d.1, end_ := d.2 } else { cmd with start := d.1 }
  else cmd

end Ed
