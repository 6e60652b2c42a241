import Verif.Go.Strconv
import Verif.Go.Lines

/-!
# Model of pkg/diff (diff.go, output.go, fuzz.go)
-/

namespace Diff
open Go

/-- diff.go:8-12, the comparison kinds. -/
inductive Kind where
  | equal
  | add
  | minus
  deriving DecidableEq, Repr

/-- diff.go:20-23 `type comparison`. Generic in the line type; the code uses strings. -/
structure Block (α : Type) where
  kind : Kind
  values : List α
  deriving DecidableEq, Repr

section
variable {α : Type} [DecidableEq α]

/-- diff.go:45-48: the map from a line to the indices where it occurs in `old` (a Go map read with
the zero value for missing keys is a total function). -/
def buildIndices (i : Nat) (m : α → List Nat) : List α → (α → List Nat)
  | [] => m
  | k :: ks => buildIndices (i + 1) (fun x => if x = k then m k ++ [i] else m x) ks

/-- diff.go:51-53, the best common run so far. -/
structure Best where
  subStartOld : Int
  subStartNew : Int
  subLen : Int
  deriving DecidableEq, Repr

/-- diff.go:56-68, the body of the inner loop. `overlap` and the accumulator's first component are
the Go maps `overlap` and `newOverlap` (missing keys read as 0). -/
def innerStep (overlap : Int → Int) (inew : Int) (acc : (Int → Int) × Best) (iold : Nat) :
    (Int → Int) × Best :=
  let v : Int := if iold = 0 then 1 else overlap ((iold : Int) - 1) + 1
  let newOverlap := fun k => if k = (iold : Int) then v else acc.1 k
  let best := if v > acc.2.subLen then
      { subStartOld := iold - v + 1, subStartNew := inew - v + 1, subLen := v }
    else acc.2
  (newOverlap, best)

/-- diff.go:54-70, the outer loop; `inew` is the index of the first remaining line. -/
def outerLoop (indices : α → List Nat) (inew : Int) (overlap : Int → Int) (best : Best) :
    List α → Best
  | [] => best
  | val :: rest =>
    let r := (indices val).foldl (innerStep overlap inew) (fun _ => 0, best)
    outerLoop indices (inew + 1) r.1 r.2 rest

/-- diff.go:45-70: the common run selected for `old` and `new`. -/
def findBest (old new : List α) : Best :=
  outerLoop (buildIndices 0 (fun _ => []) old) 0 (fun _ => 0)
    { subStartOld := 0, subStartNew := 0, subLen := 0 } new

/-- diff.go:34-91 `Diff`, with a fuel argument for the recursion depth (`none` = out of fuel) and
slice-bound panics. -/
def diffFuel : Nat → List α → List α → Option (M (List (Block α)))
  | 0, _, _ => none
  | fuel + 1, old, new =>
    if old.length = 0 then
      if old.length = new.length then some (.ok [])
      else some (.ok [{ kind := .add, values := new }])
    else if new.length = 0 then some (.ok [{ kind := .minus, values := old }])
    else
      let b := findBest old new
      if b.subLen = 0 then
        some (.ok [{ kind := .minus, values := old }, { kind := .add, values := new }])
      else
        match slice old 0 b.subStartOld, slice new 0 b.subStartNew,
          slice new b.subStartNew (b.subStartNew + b.subLen),
          slice old (b.subStartOld + b.subLen) old.length,
          slice new (b.subStartNew + b.subLen) new.length with
        | .ok ol, .ok nl, .ok mid, .ok or, .ok nr =>
          match diffFuel fuel ol nl, diffFuel fuel or nr with
          | some (.ok l), some (.ok r) => some (.ok (l ++ [{ kind := .equal, values := mid }] ++ r))
          | some (.error e), _ => some (.error e)
          | _, some (.error e) => some (.error e)
          | _, _ => none
        | _, _, _, _, _ => some (.error .index)

/-- diff.go:34-91 `Diff`: enough fuel is always `len(old) + 1` (proved in `Verif/Diff/Props.lean`;
the fallback value is never used). -/
def diff (old new : List α) : List (Block α) :=
  match diffFuel (old.length + 1) old new with
  | some (.ok l) => l
  | _ => []

/-- fuzz.go:9-26 `assembleChanges`. -/
def assembleChanges : List (Block α) → List α × List α
  | [] => ([], [])
  | c :: cs =>
    let r := assembleChanges cs
    match c.kind with
    | .add => (r.1, c.values ++ r.2)
    | .minus => (c.values ++ r.1, r.2)
    | .equal => (c.values ++ r.1, c.values ++ r.2)

end

/-- output.go:8-14 `fmtRange`. -/
def fmtRange (start length : Nat) : Bytes :=
  if length > 1 then itoa (start + 1) ++ b!"," ++ itoa ((start + 1 : Int) + length - 1)
  else itoa (start + 1)

/-- `fmt.Sprintf("> %s", l)` for each line, output.go:52-54. -/
def gt (ls : List Bytes) : List Bytes := ls.map (b!"> " ++ ·)
/-- `fmt.Sprintf("< %s", l)` for each line, output.go:65-67. -/
def lt (ls : List Bytes) : List Bytes := ls.map (b!"< " ++ ·)

/-- output.go:41-84, the loop of `basicOutput`: the elements appended to `out`. -/
def outputLoop (lineOld lineNew : Nat) : List (Block Bytes) → List Bytes
  | [] => []
  | ⟨.equal, vs⟩ :: cs => outputLoop (lineOld + vs.length) (lineNew + vs.length) cs
  | ⟨.add, vs⟩ :: cs =>
    (itoa lineOld ++ b!"a" ++ fmtRange lineNew vs.length) :: gt vs ++
      outputLoop lineOld (lineNew + vs.length) cs
  | ⟨.minus, vs⟩ :: ⟨.add, ws⟩ :: cs =>
    (fmtRange lineOld vs.length ++ b!"c" ++ fmtRange lineNew ws.length) :: lt vs ++ [b!"---"] ++
      gt ws ++ outputLoop (lineOld + vs.length) (lineNew + ws.length) cs
  | ⟨.minus, vs⟩ :: cs =>
    (fmtRange lineOld vs.length ++ b!"d" ++ itoa lineNew) :: lt vs ++
      outputLoop (lineOld + vs.length) lineNew cs

/-- output.go:16-18 `Format` and output.go:37-87 `basicOutput`. -/
def format (changes : List (Block Bytes)) : Bytes := join [nl] (outputLoop 0 0 changes)

/-- diff.go:14-18 `symbols`. -/
def symbol : Kind → Bytes
  | .equal => b!" "
  | .add => b!"+"
  | .minus => b!"-"

/-- diff.go:25-32 `comparison.String`. -/
def Block.string (c : Block Bytes) : Bytes :=
  join [nl] (c.values.map (fun v => symbol c.kind ++ b!" " ++ v))

end Diff
