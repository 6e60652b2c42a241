import Verif.Go.Utf8
import Verif.Go.Process

/-!
# Model of `/repo/pkg/tsort/tsort.go` and `/repo/cmd/tsort/main.go`

A Go map is an association list; `nil` and empty maps behave alike here and are both `[]`. The only
place where the iteration order of the map is visible is the order of `heads()`, which is therefore a
parameter: any permutation of the set of heads (see `IsHeads`).
-/

namespace TSort
open Go

section
variable {α : Type} [DecidableEq α]

/-- tsort.go:5-7: `Sorter.orderings`. -/
abbrev Orderings (α : Type) := List (α × List α)

/-- Map read; a missing key reads as `nil`. -/
def get (m : Orderings α) (k : α) : List α := (m.lookup k).getD []

/-- The keys of the map. -/
def keys (m : Orderings α) : List α := m.map (·.1)

/-- Map write. -/
def set (m : Orderings α) (k : α) (v : List α) : Orderings α :=
  match m with
  | [] => [(k, v)]
  | (k', v') :: rest => if k' = k then (k, v) :: rest else (k', v') :: set rest k v

/-- Map delete. -/
def delete (m : Orderings α) (k : α) : Orderings α := m.filter (fun e => e.1 ≠ k)

/-- tsort.go:9-16 `inSlice`. -/
def inSlice (haystack : List α) (needle : α) : Bool := haystack.any (fun j => needle = j)

/-- tsort.go:29-33, the loop over consecutive pairs. -/
def addPairs (m : Orderings α) : List α → Orderings α
  | a :: b :: rest =>
    addPairs (if !inSlice (get m a) b then set m a (get m a ++ [b]) else m) (b :: rest)
  | _ => m

/-- tsort.go:18-34 `Add`. -/
def add (m : Orderings α) (items : List α) : Orderings α :=
  match items with
  | [] => m
  | [x] => set m x []
  | _ => addPairs m items

/-- tsort.go:36-54 `heads`, in the order of the association list. -/
def heads (m : Orderings α) : List α := (keys m).filter (fun k => !m.any (fun e => e.2.contains k))

/-- `hs` is what `heads()` may return: the heads in any order. -/
def IsHeads (m : Orderings α) (hs : List α) : Prop := hs.Perm (heads m)

/-- tsort.go:56-65 `isBlocked`. -/
def isBlocked (m : Orderings α) (n : α) : Bool := m.any (fun e => e.2.any (fun i => i = n))

/-- tsort.go:70-81, the loop of `Order` (`none` = out of fuel). -/
def orderLoop : Nat → List α → Orderings α → List α → Option (List α × Orderings α)
  | _, [], m, out => some (out, m)
  | 0, _ :: _, _, _ => none
  | fuel + 1, head :: candidates, m, out =>
    let unblocked := get m head
    let m' := delete m head
    orderLoop fuel (candidates ++ unblocked.filter (fun u => !isBlocked m' u)) m' (out ++ [head])

/-- tsort.go:67-87 `Order`, given the heads in some order: the result (`none` = the error) and the
orderings left in the sorter. -/
def orderFuel (fuel : Nat) (hs : List α) (m : Orderings α) : Option (Option (List α) × Orderings α) :=
  match orderLoop fuel hs m [] with
  | none => none
  | some (out, m') => some (if m'.length > 0 then none else some out, m')

/-- `Order` may return `r` and leave `m'`: for some order of the heads and some number of rounds. -/
def Order (m : Orderings α) (r : Option (List α)) (m' : Orderings α) : Prop :=
  ∃ hs fuel, IsHeads m hs ∧ orderFuel fuel hs m = some (r, m')

/-- A sorter built by a sequence of `Add` calls on the zero value. -/
def addAll (m : Orderings α) (hist : List (List α)) : Orderings α := hist.foldl add m

end

/-! ## The command -/

/-- cmd/tsort/main.go:22-34: feeding words pairwise; an odd word is reported. -/
def feed (m : Orderings Bytes) : List Bytes → Except Bytes (Orderings Bytes)
  | [] => .ok m
  | [w] => .error w
  | w1 :: w2 :: rest => feed (add m (if w1 = w2 then [w1] else [w1, w2])) rest

/-- main.go:12-15 `die` (the argument slice is printed with `%s`, hence the brackets). -/
def die (msg : Bytes) (arg : Bytes) : Out :=
  { stdout := [], stderr := b!"ahh jeez, " ++ msg ++ b!" [" ++ arg ++ b!"]\n", exit := 1 }

/-- main.go:17-51 `run` as a relation between the input and what the process leaves behind. -/
def Run (input : Bytes) (out : Out) : Prop :=
  let (ws, tooLong) := scanWords input
  match feed [] ws with
  | .error w => out = die b!"unmatched word!" w
  | .ok m =>
    if tooLong then out = die b!"scan error!" b!"bufio.Scanner: token too long"
    else ∃ r m', Order m r m' ∧
      match r with
      | none => out = die b!"sort error!" b!"Hmm. Still items left. Ordering impossible?"
      | some l => out = { stdout := unlines l, stderr := [], exit := 0 }

/-- main.go:53-68 `main`: standard input or the file named by the first argument. -/
def Main (fs : FS) (stdin : Bytes) (args : List Bytes) (out : Out) : Prop :=
  match args with
  | [] => Run stdin out
  | f :: _ =>
    if f = b!"-" then Run stdin out
    else match fs f with
      | none => out = die b!"can't open" f
      | some s => Run s out

end TSort
