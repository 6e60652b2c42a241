import Verif.Txt.Spec

/-!
# pkg/txt/piece_table.go with memory

In `Verif/Txt/Model.lean` the readers of pieces hold bytes. In the code they hold slices: parts of arrays that
others may write to. Here arrays are explicit, so that it can be stated, and proved, that nobody else
writes to those of a table.
-/

namespace Txt
open Go

/-- A Go slice of bytes: an array, the first index, the length and the capacity. -/
structure Slice where
  arr : Nat
  off : Nat
  len : Nat
  cap : Nat
  deriving DecidableEq, Repr

/-- The nil slice. -/
def nilSlice : Slice := ⟨0, 0, 0, 0⟩

/-- All arrays, by number. -/
abbrev Memory := List Bytes

/-- The bytes of a slice now. -/
def Memory.read (m : Memory) (s : Slice) : Bytes := (((m[s.arr]?).getD []).drop s.off).take s.len

/-- An array with some bytes replaced. -/
def overwrite (a : Bytes) (pos : Nat) (data : Bytes) : Bytes := a.take pos ++ data ++ a.drop (pos + data.length)

/-- `bytes.Buffer.Write` on a buffer nothing is read from: in place if the capacity suffices, else in a new array.
(`tryGrowByReslice` and `grow`; sliding the contents down never applies as nothing has been read.) `spare` is
how many bytes more than needed the new array gets. -/
def bufWrite (spare : Nat) (m : Memory) (b : Slice) (text : Bytes) : Memory × Slice :=
  if text.length ≤ b.cap - b.len then
    (m.set b.arr (overwrite ((m[b.arr]?).getD []) (b.off + b.len) text), { b with len := b.len + text.length })
  else
    (m ++ [m.read b ++ text ++ List.replicate spare 0],
      { arr := m.length, off := 0, len := b.len + text.length, cap := b.len + text.length + spare })

/-- The `io.ReaderAt` behind a piece: the original source, or a `bytes.Reader` over a slice. -/
inductive MReader where
  | orig
  | slice (s : Slice)
  deriving DecidableEq, Repr

/-- piece_table.go:30-35 `type piece`. -/
structure MPiece where
  length : Int
  offset : Int
  reader : MReader
  deriving DecidableEq, Repr

/-- piece_table.go:13-17 `type PieceTable`. The original source is taken not to change (C97 is about the slices
given to `Insert`). `buf` is the slice inside the append buffer, `none` the nil buffer of a zero-value table. -/
structure MTable where
  orig : Bytes
  closable : Bool
  closed : Bool
  buf : Option Slice
  pieces : List MPiece
  deriving DecidableEq, Repr

/-- piece_table.go:20-27 `NewPieceTable`. -/
def newMTable (r : Bytes) (closable : Bool) (length : Int) : MTable :=
  { orig := r, closable := closable, closed := false, buf := some nilSlice
    pieces := [{ length := length, offset := 0, reader := .orig }] }

/-- The zero value `PieceTable{}`. -/
def mzero : MTable := { orig := [], closable := false, closed := false, buf := none, pieces := [] }

/-- piece_table.go:124-150: the loop of `Insert` (compare `insertLoop`). The text is read when it is copied to the
append buffer. -/
def minsertLoop (spare : Nat) (m : Memory) (buf : Option Slice) (text : Slice) (at_ : Int) (idx : Int) :
    List MPiece → M (List MPiece × Memory × Slice)
  | [] => .error .explicit
  | p :: ps =>
    if idx + p.length ≥ at_ then
      let leftSize := at_ - (idx + p.length - p.length)
      let beforePiece : MPiece := { length := leftSize, offset := p.offset, reader := p.reader }
      let afterPiece : MPiece := { length := p.length - leftSize, offset := p.offset + leftSize, reader := p.reader }
      match buf with
      | none => .error .nilDeref
      | some b =>
        let w := bufWrite spare m b (m.read text)
        let newPiece : MPiece := { length := (m.read text).length, offset := b.len, reader := .slice w.2 }
        .ok (beforePiece :: newPiece :: afterPiece :: ps, w.1, w.2)
    else
      match minsertLoop spare m buf text at_ (idx + p.length) ps with
      | .error e => .error e
      | .ok (qs, r) => .ok (p :: qs, r)

/-- piece_table.go:113-150 `Insert`. -/
def MTable.insert (spare : Nat) (m : Memory) (t : MTable) (text : Slice) (at_ : Int) : M (Memory × MTable) :=
  match t.pieces with
  | [] => .ok (m, { t with pieces := [{ length := (m.read text).length, offset := 0, reader := .slice text }] })
  | ps =>
    match minsertLoop spare m t.buf text at_ 0 ps with
    | .error e => .error e
    | .ok (qs, m', b) => .ok (m', { t with pieces := qs, buf := some b })

/-- piece_table.go:172-178 (compare `deleteTail`). -/
def mdeleteTail (stop length at_ : Int) (end_ : Int) (mid : List MPiece) : List MPiece → List MPiece
  | [] => mid
  | p :: ps =>
    if end_ + p.length ≥ stop then
      { p with length := p.length - (at_ + length - end_), offset := p.offset + (at_ + length - end_) } :: ps
    else mdeleteTail stop length at_ (end_ + p.length) (mid ++ [p]) ps

/-- piece_table.go:155-171 (compare `deleteLoop`). -/
def mdeleteLoop (stop length at_ : Int) (end_ : Int) : List MPiece → List MPiece
  | [] => []
  | p :: ps =>
    if end_ + p.length ≥ at_ then
      let first : MPiece := { p with length := at_ - end_ }
      if end_ + p.length ≥ stop then
        first :: { length := end_ + p.length - (at_ + length), offset := p.offset + (at_ - end_ + length), reader := p.reader } :: ps
      else first :: mdeleteTail stop length at_ (end_ + p.length) [] ps
    else p :: mdeleteLoop stop length at_ (end_ + p.length) ps

/-- The sum of the lengths, piece_table.go:79-82. -/
def mtotalLength : List MPiece → Int
  | [] => 0
  | p :: ps => p.length + mtotalLength ps

/-- piece_table.go:152-181 `Delete`. -/
def MTable.delete (t : MTable) (length at_ : Int) : MTable :=
  { t with pieces := mdeleteLoop (stopAt (mtotalLength t.pieces) at_ length) length at_ 0 t.pieces }

/-- What a piece sees now: the bytes of its slice. -/
def MPiece.seen (m : Memory) (p : MPiece) : Piece :=
  { length := p.length, offset := p.offset, reader := match p.reader with | .orig => .orig | .slice s => .mem (m.read s) }

/-- What the table sees now: its readers with the bytes they would deliver. -/
def MTable.seen (m : Memory) (t : MTable) : PieceTable :=
  { orig := t.orig, closable := t.closable, closed := t.closed, append := t.buf.map m.read, pieces := t.pieces.map (MPiece.seen m) }

/-- piece_table.go:77-100 `String`: the readers read their slices as they are now. -/
def MTable.string (m : Memory) (t : MTable) : M Bytes := (t.seen m).string

end Txt
