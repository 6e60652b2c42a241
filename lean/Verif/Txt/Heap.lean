import Verif.Txt.Model

/-!
# Pointer-level model of pkg/txt/piece_table.go

The same functions as in `Verif/Txt/Model.lean`, but with the linked list in an explicit heap of
mutable nodes, so that aliasing, in-place updates and the termination of traversals are part of the
model. Loops take fuel; `none` means that the fuel ran out.
-/

namespace Txt
open Go

/-- piece_table.go:30-35 `type piece` including `next`. -/
structure Node where
  piece : Piece
  next : Option Nat

/-- Go's heap, restricted to `piece` nodes. `fresh` is the next unused address. -/
structure Heap where
  mem : Nat → Node
  fresh : Nat

/-- `*a = n` -/
def Heap.set (h : Heap) (a : Nat) (n : Node) : Heap :=
  { h with mem := fun b => if b = a then n else h.mem b }

/-- `&piece{...}`: returns the address and the new heap. -/
def Heap.alloc (h : Heap) (n : Node) : Heap × Nat :=
  ({ mem := fun b => if b = h.fresh then n else h.mem b, fresh := h.fresh + 1 }, h.fresh)

/-- piece_table.go:13-17 `type PieceTable`: heap, head pointer and append buffer. -/
structure HTable where
  heap : Heap
  head : Option Nat
  append : Option Bytes

/-- `for p := pt.head; p != nil; p = p.next` collecting the pieces (the traversals of `String`,
piece_table.go:80 and 86). -/
def Heap.walk (h : Heap) : Nat → Option Nat → Option (List Piece)
  | 0, _ => none
  | _ + 1, none => some []
  | n + 1, some a => (h.walk n (h.mem a).next).map ((h.mem a).piece :: ·)

/-- piece_table.go:129-144: allocate the three pieces (`beforePiece`, `afterPiece`, `newPiece`) that
replace the node `p` and link them in after `prev`. Returns heap and head. -/
def Heap.link (h : Heap) (head prev : Option Nat) (p : Nat) (before after new : Piece) :
    Heap × Option Nat :=
  let (h1, ab) := h.alloc { piece := before, next := none }
  let (h2, aa) := h1.alloc { piece := after, next := none }
  let (h3, an) := h2.alloc { piece := new, next := none }
  let (h4, head') : Heap × Option Nat :=
    match prev with
    | none => (h3, some ab)
    | some q => (h3.set q { h3.mem q with next := some ab }, head)
  let h5 := h4.set ab { h4.mem ab with next := some an }
  let h6 := h5.set an { h5.mem an with next := some aa }
  let h7 := h6.set aa { h6.mem aa with next := (h6.mem p).next }
  (h7, head')

/-- piece_table.go:124-150, the loop of `Insert`. -/
def hInsertLoop (text : Bytes) (at_ : Int) (t : HTable) :
    Nat → Option Nat → Option Nat → Int → Option (M HTable)
  | 0, _, _, _ => none
  | _ + 1, none, _, _ => some (.error .explicit)
  | n + 1, some p, prev, idx =>
    let nd := t.heap.mem p
    if idx + nd.piece.length ≥ at_ then
      let leftSize := at_ - (idx + nd.piece.length - nd.piece.length)
      match t.append with
      | none => some (.error .nilDeref)
      | some b =>
        let r := t.heap.link t.head prev p
          { length := leftSize, offset := nd.piece.offset, reader := nd.piece.reader }
          { length := nd.piece.length - leftSize,
            offset := nd.piece.offset + leftSize, reader := nd.piece.reader }
          { length := text.length, offset := b.length, reader := .mem (b ++ text) }
        some (.ok { heap := r.1, head := r.2, append := some (b ++ text) })
    else hInsertLoop text at_ t n nd.next (some p) (idx + nd.piece.length)

/-- piece_table.go:113-150 `Insert`. -/
def HTable.insert (t : HTable) (fuel : Nat) (text : Bytes) (at_ : Int) : Option (M HTable) :=
  match t.head with
  | none =>
    let (h, a) := t.heap.alloc
      { piece := { length := text.length, offset := 0, reader := .mem text }, next := none }
    some (.ok { t with heap := h, head := some a })
  | some _ => hInsertLoop text at_ t fuel t.head none 0

/-- piece_table.go:155-179, the loop of `Delete`. -/
def hDeleteLoop (stop length at_ : Int) : Nat → Heap → Option Nat → Option Nat → Int → Option Heap
  | 0, _, _, _, _ => none
  | _ + 1, h, none, _, _ => some h
  | n + 1, h, some p, first, end_ =>
    let start := end_
    let end' := end_ + (h.mem p).piece.length
    -- first `if`: Sum.inl = returned, Sum.inr = fell through with the new heap and `first`
    let r : Heap ⊕ (Heap × Option Nat) :=
      if end' ≥ at_ ∧ first = none then
        let h1 := h.set p { h.mem p with piece := { (h.mem p).piece with length := at_ - start } }
        if end' ≥ stop then
          let (h2, a) := h1.alloc
            { next := (h1.mem p).next,
              piece := { length := end' - (at_ + length),
                         offset := (h1.mem p).piece.offset + (at_ - start + length),
                         reader := (h1.mem p).piece.reader } }
          .inl (h2.set p { h2.mem p with next := some a })
        else .inr (h1, some p)
      else .inr (h, first)
    match r with
    | .inl h' => some h'
    | .inr (h, none) => hDeleteLoop stop length at_ n h (h.mem p).next none end'
    | .inr (h, some f) =>
      if end' ≥ stop then
        let h1 := h.set f { h.mem f with next := some p }
        let trimLen := at_ + length - start
        some (h1.set p { h1.mem p with
          piece := { (h1.mem p).piece with
            length := (h1.mem p).piece.length - trimLen,
            offset := (h1.mem p).piece.offset + (at_ + length - start) } })
      else hDeleteLoop stop length at_ n h (h.mem p).next (some f) end'

/-- piece_table.go:152-181 `Delete`. (The walk serves only to state when the 64-bit sum `at+length` is exact, see
`stopAt`.) -/
def HTable.delete (t : HTable) (fuel : Nat) (length at_ : Int) : Option HTable :=
  match t.heap.walk fuel t.head with
  | none => none
  | some ps =>
    (hDeleteLoop (stopAt (totalLength ps) at_ length) length at_ fuel t.heap t.head none 0).map fun h => { t with heap := h }

/-- piece_table.go:20-27 `NewPieceTable` in an empty heap. -/
def hNew (length : Int) : HTable :=
  { heap := { mem := fun _ => { piece := { length := length, offset := 0, reader := .orig },
                                next := none }, fresh := 1 },
    head := some 0, append := some [] }

/-- The part of `clean` that drops leading empty nodes, piece_table.go:185-187. -/
def hCleanHead (h : Heap) : Nat → Option Nat → Option (Option Nat)
  | 0, _ => none
  | _ + 1, none => some none
  | n + 1, some a => if (h.mem a).piece.length ≤ 0 then hCleanHead h n (h.mem a).next else some (some a)

/-- piece_table.go:188-194, the second loop of `clean`; `prev.next = p.next` with `prev == nil`
is a nil dereference. -/
def hCleanLoop : Nat → Heap → Option Nat → Option Nat → Option (M Heap)
  | 0, _, _, _ => none
  | _ + 1, h, none, _ => some (.ok h)
  | n + 1, h, some p, prev =>
    if (h.mem p).piece.length ≤ 0 then
      match prev with
      | none => some (.error .nilDeref)
      | some q =>
        let h1 := h.set q { h.mem q with next := (h.mem p).next }
        hCleanLoop n h1 (h1.mem p).next (some p)
    else hCleanLoop n h (h.mem p).next (some p)

/-- piece_table.go:183-196 `clean`. -/
def HTable.clean (t : HTable) (fuel : Nat) : Option (M HTable) :=
  (hCleanHead t.heap fuel t.head).bind fun hd =>
    (hCleanLoop fuel t.heap hd none).map fun r => r.map fun h => { t with heap := h, head := hd }

end Txt
