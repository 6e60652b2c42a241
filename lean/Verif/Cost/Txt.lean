import Verif.Txt.Props

/-!
# How large a piece table gets (C127)

Every call looks at each piece at most once, so the number of pieces bounds its work.
-/

namespace Txt
open Go

theorem insertLoop_pieces (buf : Option Bytes) (text : Bytes) (at_ : Int) : ∀ (ps : List Piece) (idx : Int) (qs : List Piece) (b : Bytes),
    insertLoop buf text at_ idx ps = .ok (qs, b) → qs.length = ps.length + 2 ∧ ∃ b0, buf = some b0 ∧ b = b0 ++ text
  | [], _, _, _, h => by simp [insertLoop] at h
  | p :: ps, idx, qs, b, h => by
    rw [insertLoop] at h
    split at h
    · cases buf with
      | none => simp at h
      | some b0 =>
        simp only [Except.ok.injEq, Prod.mk.injEq] at h
        obtain ⟨rfl, rfl⟩ := h
        exact ⟨by simp, b0, rfl, rfl⟩
    · cases hr : insertLoop buf text at_ (idx + p.length) ps with
      | error e => rw [hr] at h; cases h
      | ok r =>
        obtain ⟨qs', b'⟩ := r
        rw [hr] at h
        have h' : (Except.ok (p :: qs', b') : M (List Piece × Bytes)) = .ok (qs, b) := h
        simp only [Except.ok.injEq, Prod.mk.injEq] at h'
        obtain ⟨rfl, rfl⟩ := h'
        have := insertLoop_pieces buf text at_ ps _ _ _ hr
        exact ⟨by simp; omega, this.2⟩

theorem deleteTail_pieces (stop length at_ : Int) : ∀ (ps : List Piece) (end_ : Int) (mid : List Piece),
    (deleteTail stop length at_ end_ mid ps).length ≤ mid.length + ps.length
  | [], _, mid => by simp [deleteTail]
  | p :: ps, end_, mid => by
    rw [deleteTail]
    split
    · simp
    · have := deleteTail_pieces stop length at_ ps (end_ + p.length) (mid ++ [p])
      simp at this ⊢; omega

theorem deleteLoop_pieces (stop length at_ : Int) : ∀ (ps : List Piece) (end_ : Int),
    (deleteLoop stop length at_ end_ ps).length ≤ ps.length + 1
  | [], _ => by simp [deleteLoop]
  | p :: ps, end_ => by
    rw [deleteLoop]
    split
    · dsimp only
      split
      · simp
      · have := deleteTail_pieces stop length at_ ps (end_ + p.length) []
        simp at this ⊢; omega
    · have := deleteLoop_pieces stop length at_ ps (end_ + p.length)
      simp at this ⊢; omega

/-- The number of insertions and deletions of a history. -/
def inserts : List Op → Nat
  | [] => 0
  | .insert _ _ :: os => 1 + inserts os
  | .delete _ _ :: os => inserts os

/-- The number of bytes a history inserts. -/
def inserted : List Op → Nat
  | [] => 0
  | .insert x _ :: os => x.length + inserted os
  | .delete _ _ :: os => inserted os

theorem apply_pieces (pt pt' : PieceTable) (o : Op) (h : pt.apply o = .ok pt') :
    pt'.pieces.length ≤ pt.pieces.length + 1 + inserts [o] ∧ (pt'.append.getD []).length ≤ (pt.append.getD []).length + inserted [o] := by
  cases o with
  | insert x a =>
    simp only [PieceTable.apply, PieceTable.insert] at h
    cases hp : pt.pieces with
    | nil =>
      rw [hp] at h
      simp only [Except.ok.injEq] at h
      subst h
      simp [inserts]
    | cons p ps =>
      rw [hp] at h
      dsimp only at h
      cases hr : insertLoop pt.append x a 0 (p :: ps) with
      | error e => rw [hr] at h; cases h
      | ok r =>
        obtain ⟨qs, b⟩ := r
        rw [hr] at h
        have h' : (Except.ok { pt with pieces := qs, append := some b } : M PieceTable) = .ok pt' := h
        simp only [Except.ok.injEq] at h'
        subst h'
        obtain ⟨h1, b0, h2, rfl⟩ := insertLoop_pieces _ _ _ _ _ _ _ hr
        simp [inserts, inserted, h1, h2]
  | delete n a =>
    simp only [PieceTable.apply, Except.ok.injEq] at h
    subst h
    refine ⟨?_, by simp [PieceTable.delete, inserted]⟩
    have := deleteLoop_pieces (stopAt (totalLength pt.pieces) a n) n a pt.pieces 0
    simp only [PieceTable.delete, inserts]
    omega

/-- C127: a piece table does not grow faster than its history, whatever the positions and lengths: an insertion adds at most two pieces,
a deletion at most one, and the buffer holds what has been inserted and nothing else. -/
theorem C127_pieces (ops : List Op) : ∀ (pt pt' : PieceTable), pt.run ops = .ok pt' →
    pt'.pieces.length ≤ pt.pieces.length + ops.length + inserts ops ∧
    (pt'.append.getD []).length ≤ (pt.append.getD []).length + inserted ops := by
  induction ops with
  | nil =>
    intro pt pt' h
    simp only [PieceTable.run, Except.ok.injEq] at h
    subst h
    simp [inserts, inserted]
  | cons o os ih =>
    intro pt pt' h
    cases ha : pt.apply o with
    | error e => simp only [PieceTable.run, ha] at h; cases h
    | ok q =>
      have h' : q.run os = .ok pt' := by simp only [PieceTable.run, ha] at h; exact h
      have h1 := apply_pieces pt q o ha
      have h2 := ih q pt' h'
      cases o <;> simp only [inserts, inserted, List.length_cons] at h1 h2 ⊢ <;> omega

example : ∃ pt, (newPieceTable b!"one two" false 7).run [.insert b!"x" 3, .delete 2 1, .insert b!"yz" 0] = .ok pt ∧ pt.pieces.length = 6 ∧
    (pt.append.getD []).length = 3 := ⟨_, rfl, by decide +kernel⟩

end Txt
