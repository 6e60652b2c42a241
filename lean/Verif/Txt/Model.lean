import Verif.Go.Strconv
import Verif.Go.Lines

/-!
# Model of pkg/txt/piece_table.go
-/

namespace Txt
open Go

/-- The `io.ReaderAt` behind a piece: either the table's original source, or a `bytes.Reader`
over a slice taken at the time of the call (piece_table.go:120, 134).  Slices of the append buffer
are immutable snapshots because `bytes.Buffer.Write` never overwrites bytes before its length (proved in
`MemoryProps.lean`, C97). -/
inductive Reader where
  | orig
  | mem (b : Bytes)
  deriving DecidableEq, Repr

/-- piece_table.go:30-35 `type piece` (without `next`: the linked list is a Lean list here; the
pointer structure is modelled separately in `Verif/Txt/Heap.lean`). -/
structure Piece where
  length : Int
  offset : Int
  reader : Reader
  deriving DecidableEq, Repr

/-- piece_table.go:13-17 `type PieceTable`.  `orig` is the full contents of the original source,
`closable` says whether it implements `io.Closer`, `closed` whether it has been closed.
`append = none` is the nil buffer of a zero-value table. `pieces = []` is `head == nil`. -/
structure PieceTable where
  orig : Bytes
  closable : Bool
  closed : Bool
  append : Option Bytes
  pieces : List Piece
  deriving DecidableEq, Repr

/-- piece_table.go:20-27 `NewPieceTable(r, length)`. -/
def newPieceTable (r : Bytes) (closable : Bool) (length : Int) : PieceTable :=
  { orig := r, closable := closable, closed := false, append := some [],
    pieces := [{ length := length, offset := 0, reader := .orig }] }

/-- The zero value `PieceTable{}` (as in `&ed.Itor{}`, cmd/ed/main.go). -/
def zero : PieceTable :=
  { orig := [], closable := false, closed := false, append := none, pieces := [] }

/-- piece_table.go:38-43 `Close`. -/
def PieceTable.close (pt : PieceTable) : PieceTable :=
  if pt.closable then { pt with closed := true } else pt

/-- The bytes behind a reader; `none` if it has been closed. -/
def PieceTable.source (pt : PieceTable) : Reader → Option Bytes
  | .orig => if pt.closed then none else some pt.orig
  | .mem b => some b

/-- `io.ReaderAt.ReadAt` filling a buffer of `n` bytes from offset `off`: all of it or an error
(`none`), as `bytes.Reader`, `strings.Reader` and `os.File` do. -/
def readAt (src : Option Bytes) (n off : Int) : Option Bytes :=
  match src with
  | none => none
  | some s =>
    if 0 ≤ off ∧ off + n ≤ s.length then some ((s.drop off.toNat).take n.toNat) else none

/-- The second loop of `String`, piece_table.go:86-98, together with `piece.Read`,
piece_table.go:55-74: `total` is `len(out)`, `idx` the write position. Returns what is written from
`idx` on. -/
def PieceTable.readPieces (pt : PieceTable) (total : Int) (idx : Int) : List Piece → M Bytes
  | [] => .ok []
  | p :: ps =>
    if p.length = 0 then pt.readPieces total idx ps
    else if p.length < 0 then .error .explicit
    else if idx + p.length > total then .error .index
    else
      match readAt (pt.source p.reader) p.length p.offset with
      | none => .error .explicit
      | some b => do
        let rest ← pt.readPieces total (idx + p.length) ps
        .ok (b ++ rest)

/-- Sum of piece lengths, piece_table.go:79-82. -/
def totalLength : List Piece → Int
  | [] => 0
  | p :: ps => p.length + totalLength ps

/-- piece_table.go:77-100 `String`. -/
def PieceTable.string (pt : PieceTable) : M Bytes :=
  if totalLength pt.pieces < 0 then .error .index
  else pt.readPieces (totalLength pt.pieces) 0 pt.pieces

/-- The loop of `Insert`, piece_table.go:124-150, on the pieces not yet visited; `idx` is the value
of `idx` before visiting them, `buf` the append buffer. Returns the new pieces and buffer. -/
def insertLoop (buf : Option Bytes) (text : Bytes) (at_ : Int) (idx : Int) :
    List Piece → M (List Piece × Bytes)
  | [] => .error .explicit
  | p :: ps =>
    if idx + p.length ≥ at_ then
      let leftSize := at_ - (idx + p.length - p.length)
      let beforePiece : Piece := { length := leftSize, offset := p.offset, reader := p.reader }
      let afterPiece : Piece :=
        { length := p.length - leftSize, offset := p.offset + leftSize, reader := p.reader }
      match buf with
      | none => .error .nilDeref
      | some b =>
        let newPiece : Piece :=
          { length := text.length, offset := b.length, reader := .mem (b ++ text) }
        .ok (beforePiece :: newPiece :: afterPiece :: ps, b ++ text)
    else do
      let (qs, b) ← insertLoop buf text at_ (idx + p.length) ps
      .ok (p :: qs, b)

/-- piece_table.go:113-150 `Insert`. -/
def PieceTable.insert (pt : PieceTable) (text : Bytes) (at_ : Int) : M PieceTable :=
  match pt.pieces with
  | [] =>
    .ok { pt with pieces := [{ length := text.length, offset := 0, reader := .mem text }] }
  | ps => do
    let (qs, b) ← insertLoop pt.append text at_ 0 ps
    .ok { pt with pieces := qs, append := some b }

/-- The part of `Delete`'s loop run after `first` has been set, piece_table.go:172-178.  `mid` are
the pieces visited since `first`; they are unlinked if the end of the window is found
(`first.next = p`) and stay otherwise. -/
def deleteTail (stop length at_ : Int) (end_ : Int) (mid : List Piece) : List Piece → List Piece
  | [] => mid
  | p :: ps =>
    if end_ + p.length ≥ stop then
      { p with length := p.length - (at_ + length - end_),
               offset := p.offset + (at_ + length - end_) } :: ps
    else deleteTail stop length at_ (end_ + p.length) (mid ++ [p]) ps

/-- The loop of `Delete` before `first` is set, piece_table.go:155-171. -/
def deleteLoop (stop length at_ : Int) (end_ : Int) : List Piece → List Piece
  | [] => []
  | p :: ps =>
    if end_ + p.length ≥ at_ then
      let first : Piece := { p with length := at_ - end_ }
      if end_ + p.length ≥ stop then
        first :: { length := end_ + p.length - (at_ + length),
                   offset := p.offset + (at_ - end_ + length), reader := p.reader } :: ps
      else first :: deleteTail stop length at_ (end_ + p.length) [] ps
    else p :: deleteLoop stop length at_ (end_ + p.length) ps

/-- The value of `at+length` in 64-bit arithmetic. A sum within the text never overflows, since texts have
fewer than 2^63 bytes. -/
def stopAt (total at_ length : Int) : Int :=
  if at_ + length ≤ total then at_ + length else wrap64 (at_ + length)

/-- piece_table.go:152-181 `Delete(length, at)`. It never panics. The comparisons with `at+length` use the
64-bit sum. The lengths and offsets stored are written with exact arithmetic: for non-negative arguments
`end - (at+length)` and `at-start+length` fit in 64 bits even if `at+length` does not. -/
def PieceTable.delete (pt : PieceTable) (length at_ : Int) : PieceTable :=
  { pt with pieces := deleteLoop (stopAt (totalLength pt.pieces) at_ length) length at_ 0 pt.pieces }

/-- The second loop of `clean`, piece_table.go:188-194. `prevLinked` says whether the node in `prev`
is still part of the list: unlinking assigns to `prev.next`, and `prev` is then set to the unlinked
node, so the node after an unlinked one can not be unlinked itself. -/
def cleanLoop (prevLinked : Bool) : List Piece → List Piece
  | [] => []
  | p :: ps =>
    if p.length ≤ 0 ∧ prevLinked then cleanLoop false ps
    else p :: cleanLoop true ps

/-- piece_table.go:183-196 `clean`: the first loop drops leading empty pieces, so in the second
loop the head is kept and becomes `prev`. -/
def PieceTable.clean (pt : PieceTable) : PieceTable :=
  { pt with pieces :=
      match pt.pieces.dropWhile (fun p => p.length ≤ 0) with
      | [] => []
      | p :: ps => p :: cleanLoop true ps }

/-! ## naiveTable -/

/-- piece_table.go:206-213 `naiveTable.Insert` (slice bounds panic when out of range).
`copy(new[:at], old[:at])`, `copy(new[at:], text)`, `copy(new[at+len(text):], old[at:])`. -/
def naiveInsert (nt : Bytes) (text : Bytes) (at_ : Int) : M Bytes :=
  if 0 ≤ at_ ∧ at_ ≤ nt.length then
    .ok (nt.take at_.toNat ++ text ++ nt.drop at_.toNat)
  else .error .index

/-- piece_table.go:214-216 `naiveTable.Delete`: `append(nt[:at], nt[at+length:]...)`, the sum in 64-bit arithmetic.  Simplified: the bound of
`nt[:at]` is the length, not the capacity. -/
def naiveDelete (nt : Bytes) (length at_ : Int) : M Bytes :=
  let from_ := stopAt nt.length at_ length
  if 0 ≤ at_ ∧ at_ ≤ nt.length ∧ 0 ≤ from_ ∧ from_ ≤ nt.length then
    .ok (nt.take at_.toNat ++ nt.drop from_.toNat)
  else .error .index

/-- What `Sscanf(cmd, "%d %d %s", ...)` delivers for one line of the fuzz input, piece_table.go:228-237. -/
structure FuzzCmd where
  typ : Int
  at_ : Int
  txt : Bytes
  deriving Repr

/-- piece_table.go:228-256: the loop of `Fuzz`; `none` is a line `Sscanf` rejects. The result is whether
the loop returned 0 (`ok`) or panicked. -/
def fuzzLoop (pt : PieceTable) (nt : Bytes) : List (Option FuzzCmd) → M Unit
  | [] => .ok ()
  | none :: _ => .ok ()
  | some c :: cs =>
    if c.at_ < 0 ∨ c.typ = 0 then .ok ()
    else
      let a : Int := if c.at_ > nt.length then nt.length else c.at_
      if c.typ > 0 then do
        let nt' ← naiveInsert nt c.txt a
        let pt' ← pt.insert c.txt a
        let s ← pt'.string
        if nt' ≠ s then .error .explicit else fuzzLoop pt' nt' cs
      else
        match atoi? c.txt with
        | none => .ok ()
        | some length =>
          if length < 0 ∨ stopAt nt.length a length ≥ nt.length then .ok ()
          else do
            let nt' ← naiveDelete nt length a
            let pt' := pt.delete length a
            let s ← pt'.string
            if nt' ≠ s then .error .explicit else fuzzLoop pt' nt' cs

/-- piece_table.go:218-262 `Fuzz`: the first line is the original text, the others are commands. `scan` is
`Sscanf`. (An over-long line ends the loop like the end of the input; both return 0.) -/
def fuzz (scan : Bytes → Option FuzzCmd) (data : Bytes) : M Unit :=
  match (scanLines data).1 with
  | [] => .ok ()
  | orig :: cmds => fuzzLoop (newPieceTable orig false orig.length) orig (cmds.map scan)

end Txt
