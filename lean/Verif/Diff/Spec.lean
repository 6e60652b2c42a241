import Verif.Diff.Model

/-!
# Specification vocabulary for diff

Independent of how `Diff` works: what the old and new side of a list of blocks are, what a common
run is, and how a POSIX normal diff is read and applied.
-/

namespace Diff
open Go

section
variable {α : Type}

/-- The old file as told by a list of blocks: what is kept or deleted. -/
def oldSide (cs : List (Block α)) : List α :=
  cs.flatMap fun c => if c.kind = .add then [] else c.values

/-- The new file as told by a list of blocks: what is kept or added. -/
def newSide (cs : List (Block α)) : List α :=
  cs.flatMap fun c => if c.kind = .minus then [] else c.values

/-- `n` lines starting at (0-based) `a` in `old` and at `b` in `new` are the same. -/
def CommonRun (old new : List α) (a b n : Nat) : Prop :=
  a + n ≤ old.length ∧ b + n ≤ new.length ∧ (old.drop a).take n = (new.drop b).take n

/-- Two blocks that may follow each other in a normalised diff. -/
def MayFollow (c d : Block α) : Prop := c.kind ≠ d.kind ∧ ¬ (c.kind = .add ∧ d.kind = .minus)

/-- Normal form: no empty block, neighbouring blocks of different kind, deletions before additions. -/
def Normal (cs : List (Block α)) : Prop :=
  (∀ c ∈ cs, c.values ≠ []) ∧ ∀ pre c d post, cs = pre ++ c :: d :: post → MayFollow c d

end

/-! ## Reading and applying a normal diff -/

/-- `n` or `n,m`: first and last line number, and the rest of the text. -/
def readRange (s : Bytes) : Option (Nat × Nat × Bytes) :=
  let d1 := s.takeWhile isDigit
  if d1 = [] then none
  else
    match s.dropWhile isDigit with
    | 44 :: r =>
      let d2 := r.takeWhile isDigit
      if d2 = [] then none else some (digitsVal d1, digitsVal d2, r.dropWhile isDigit)
    | r => some (digitsVal d1, digitsVal d1, r)

/-- A change command of a normal diff. -/
structure Hunk where
  /-- `a`, `c` or `d` -/
  cmd : UInt8
  o1 : Nat
  o2 : Nat
  n1 : Nat
  n2 : Nat
  /-- the lines after `< ` -/
  dels : List Bytes
  /-- the lines after `> ` -/
  adds : List Bytes
  deriving DecidableEq, Repr

/-- The header line of a change command. -/
def readHeader (l : Bytes) : Option (UInt8 × Nat × Nat × Nat × Nat) := do
  let (o1, o2, r) ← readRange l
  match r with
  | [] => none
  | c :: r =>
    let (n1, n2, r') ← readRange r
    if r' = [] ∧ (c = 97 ∨ c = 99 ∨ c = 100) then some (c, o1, o2, n1, n2) else none

/-- Does the line start with the prefix? -/
def startsWith (p : Bytes) (l : Bytes) : Bool := p.isPrefixOf l

/-- After the deleted lines of a `c` command (99) there is a line `---`. -/
def skipSep (c : UInt8) (ls : List Bytes) : Option (List Bytes) :=
  if c = 99 then
    match ls with
    | m :: r => if m = b!"---" then some r else none
    | [] => none
  else some ls

/-- Read change commands from the lines of a diff (`fuel` bounds their number). -/
def readHunks : Nat → List Bytes → Option (List Hunk)
  | _, [] => some []
  | 0, _ => none
  | fuel + 1, l :: ls => do
    let (c, o1, o2, n1, n2) ← readHeader l
    let dels := (ls.takeWhile (startsWith b!"< ")).map (·.drop 2)
    let ls1 := ls.dropWhile (startsWith b!"< ")
    let ls2 ← skipSep c ls1
    let adds := (ls2.takeWhile (startsWith b!"> ")).map (·.drop 2)
    let hs ← readHunks fuel (ls2.dropWhile (startsWith b!"> "))
    some (⟨c, o1, o2, n1, n2, dels, adds⟩ :: hs)

/-- Read a normal diff text: split at newlines, then read the change commands. -/
def readPatch (text : Bytes) : Option (List Hunk) :=
  let ls := rawLines text
  readHunks ls.length ls

/-- Apply change commands to the lines `rest` of the old file after its first `pos` lines, like
patch(1): `NaX` inserts after line `N`, `N,MdX` deletes lines `N..M`, `N,McX` replaces them; deleted
lines must be the ones quoted and hunks must come in order. -/
def applyHunks (pos : Nat) (rest : List Bytes) : List Hunk → Option (List Bytes)
  | [] => some rest
  | h :: hs =>
    if h.cmd = 97 then
      if pos ≤ h.o1 ∧ h.o1 - pos ≤ rest.length ∧ h.dels = [] then
        (applyHunks h.o1 (rest.drop (h.o1 - pos)) hs).map fun t =>
          rest.take (h.o1 - pos) ++ h.adds ++ t
      else none
    else
      if pos < h.o1 ∧ h.o1 ≤ h.o2 ∧ h.o2 - pos ≤ rest.length ∧
          (rest.drop (h.o1 - 1 - pos)).take (h.o2 + 1 - h.o1) = h.dels ∧
          (h.cmd = 100 → h.adds = []) then
        (applyHunks h.o2 (rest.drop (h.o2 - pos)) hs).map fun t =>
          rest.take (h.o1 - 1 - pos) ++ h.adds ++ t
      else none

/-- Apply a normal diff to a file. -/
def applyPatch (old : List Bytes) (text : Bytes) : Option (List Bytes) :=
  (readPatch text).bind (applyHunks 0 old)

/-- The lines numbered `a..b` (1-based, inclusive) of a file. -/
def lineRange (f : List Bytes) (a b : Nat) : List Bytes := (f.drop (a - 1)).take (b + 1 - a)

/-- A hunk tells the truth about the two files: for `a` the `>` lines are lines `n1..n2` of the new
file; for `d` the `<` lines are lines `o1..o2` of the old one; for `c` both. -/
def Hunk.Truthful (old new : List Bytes) (h : Hunk) : Prop :=
  (h.cmd = 97 → h.dels = [] ∧ h.o1 = h.o2 ∧ h.o1 ≤ old.length ∧ 1 ≤ h.n1 ∧ h.n1 ≤ h.n2 ∧ h.n2 ≤ new.length ∧
    lineRange new h.n1 h.n2 = h.adds) ∧
  (h.cmd = 100 → h.adds = [] ∧ h.n1 = h.n2 ∧ h.n1 ≤ new.length ∧ 1 ≤ h.o1 ∧ h.o1 ≤ h.o2 ∧ h.o2 ≤ old.length ∧
    lineRange old h.o1 h.o2 = h.dels) ∧
  (h.cmd = 99 → 1 ≤ h.o1 ∧ h.o1 ≤ h.o2 ∧ h.o2 ≤ old.length ∧ 1 ≤ h.n1 ∧ h.n1 ≤ h.n2 ∧ h.n2 ≤ new.length ∧
    lineRange old h.o1 h.o2 = h.dels ∧ lineRange new h.n1 h.n2 = h.adds) ∧
  (h.cmd = 97 ∨ h.cmd = 99 ∨ h.cmd = 100)

/-- Consecutive hunks concern increasing line ranges in both files, with a gap between them. -/
def Ordered (hs : List Hunk) : Prop :=
  ∀ pre h h' post, hs = pre ++ h :: h' :: post → h.o2 < h'.o1 ∧ h.n2 < h'.n1

end Diff
