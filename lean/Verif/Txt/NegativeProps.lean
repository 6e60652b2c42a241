import Verif.Txt.Props

/-! # Deleting a negative number of bytes (C106) -/

namespace Txt
open Go

theorem deleteLoop_negative (k at_ : Int) (hk : 0 < k) : ∀ (ps : List Piece) (orig : Bytes) (end_ : Int),
    AllWF orig ps → ps ≠ [] → end_ ≤ at_ → at_ - end_ ≤ totalLength ps →
    ∃ xs p ys, ps = xs ++ p :: ys ∧ (xs = [] ∨ totalLength xs < at_ - end_) ∧ at_ - end_ ≤ totalLength xs + p.length ∧
      deleteLoop (at_ + -k) (-k) at_ end_ ps = xs ++ { p with length := at_ - end_ - totalLength xs } ::
        { length := totalLength xs + p.length - (at_ - end_) + k, offset := p.offset + (at_ - end_ - totalLength xs) - k, reader := p.reader } :: ys := by
  intro ps
  induction ps with
  | nil => intro _ _ _ h; exact absurd rfl h
  | cons p ps ih =>
    intro orig end_ h _ h1 h2
    rw [AllWF.cons] at h
    have hn := totalLength_nonneg h.2
    have hp := h.1.1
    simp only [totalLength] at h2
    simp only [deleteLoop]
    by_cases hc : end_ + p.length ≥ at_
    · rw [if_pos hc, if_pos (by omega)]
      refine ⟨[], p, ps, rfl, .inl rfl, by simp [totalLength]; omega, ?_⟩
      simp only [totalLength, List.nil_append, List.cons.injEq, Piece.mk.injEq, and_true, true_and]
      omega
    · rw [if_neg hc]
      have hne : ps ≠ [] := by rintro rfl; simp [totalLength] at h2; omega
      obtain ⟨xs, q, ys, e1, e2, e3, e4⟩ := ih orig (end_ + p.length) h.2 hne (by omega) (by omega)
      refine ⟨p :: xs, q, ys, by rw [e1]; rfl, .inr ?_, by simp only [totalLength]; omega, ?_⟩
      · simp only [totalLength]
        rcases e2 with rfl | e2
        · simp only [totalLength]; omega
        · omega
      · rw [e4]
        simp only [totalLength, List.cons_append, List.cons.injEq, true_and]
        congr 1
        simp only [List.cons.injEq, Piece.mk.injEq, and_true]
        omega

theorem deleteLoop_beyond (stop length at_ : Int) : ∀ (ps : List Piece) (orig : Bytes) (end_ : Int),
    AllWF orig ps → end_ + totalLength ps < at_ → deleteLoop stop length at_ end_ ps = ps := by
  intro ps
  induction ps with
  | nil => intros; rfl
  | cons p ps ih =>
    intro orig end_ h h1
    rw [AllWF.cons] at h
    have hn := totalLength_nonneg h.2
    simp only [totalLength] at h1
    simp only [deleteLoop]
    rw [if_neg (by omega), ih orig _ h.2 (by omega)]

/-- A piece that starts before its source makes the text unreadable. -/
theorem string_before {pt : PieceTable} {q : Piece} (hq : q ∈ pt.pieces) (hl : 0 < q.length) (ho : q.offset < 0) : ∃ e, pt.string = .error e := by
  have key : ∀ (ps : List Piece) (total idx : Int), q ∈ ps → ∃ e, pt.readPieces total idx ps = .error e := by
    intro ps
    induction ps with
    | nil => intro _ _ h; cases h
    | cons p ps ih =>
      intro total idx hm
      simp only [PieceTable.readPieces]
      rcases List.mem_cons.1 hm with rfl | hm
      · rw [if_neg (by omega), if_neg (by omega)]
        split
        · exact ⟨_, rfl⟩
        · have : readAt (pt.source q.reader) q.length q.offset = none := by
            simp only [readAt]
            split
            · rfl
            · rw [if_neg (by omega)]
          rw [this]
          exact ⟨_, rfl⟩
      · split
        · exact ih _ _ hm
        · split
          · exact ⟨_, rfl⟩
          · split
            · exact ⟨_, rfl⟩
            · split
              · exact ⟨_, rfl⟩
              · obtain ⟨e, he⟩ := ih total (idx + p.length) hm
                exact ⟨e, by rw [he]; rfl⟩
  simp only [PieceTable.string]
  split
  · exact ⟨_, rfl⟩
  · exact key _ _ _ hq

/-- What a negative delete does to a table, with the piece it is made in. -/
theorem delete_negative {pt : PieceTable} (h : Reachable pt) {t : Bytes} (ht : pt.string = .ok t) (k at_ : Nat) (hk : 0 < k) (h1 : at_ ≤ t.length) :
    ∃ xs p ys, pt.pieces = xs ++ p :: ys ∧ (xs = [] ∨ totalLength xs < at_) ∧ (at_ : Int) ≤ totalLength xs + p.length ∧
      (p.offset + (at_ - totalLength xs) < k → ∃ e, (pt.delete (-k) at_).string = .error e) ∧
      (k ≤ p.offset + (at_ - totalLength xs) → (pt.delete (-k) at_).string =
        .ok (t.take at_ ++ ((src pt.orig p.reader).drop (p.offset + (at_ - totalLength xs) - k).toNat).take k ++ t.drop at_)) := by
  have g := h.good
  rw [string_wf g.toWF] at ht
  cases ht
  have hl := content_length g.pieces
  obtain ⟨xs, p, ys, e1, e2, e3, e4⟩ := deleteLoop_negative k at_ (by omega) pt.pieces pt.orig 0 g.pieces g.nonempty (by omega) (by omega)
  have hs : stopAt (totalLength pt.pieces) at_ (-k) = at_ + -k := stopAt_in (by omega)
  have hd : (pt.delete (-k) at_).pieces = xs ++ { p with length := (at_ : Int) - 0 - totalLength xs } ::
        { length := totalLength xs + p.length - ((at_ : Int) - 0) + k, offset := p.offset + ((at_ : Int) - 0 - totalLength xs) - k, reader := p.reader } :: ys := by
    rw [← e4]; simp only [PieceTable.delete, hs]
  have gp := g.pieces
  rw [e1] at gp
  obtain ⟨gx, gr⟩ := AllWF.append.1 gp
  rw [AllWF.cons] at gr
  obtain ⟨gq, gy⟩ := gr
  have hlx := content_length gx
  have hlp := text_length gq
  have hx0 : totalLength xs ≤ at_ := by
    rcases e2 with rfl | e2
    · simp [totalLength]
    · omega
  refine ⟨xs, p, ys, e1, by simpa using e2, by simpa using e3, ?_, ?_⟩
  · intro hlt
    refine string_before (q := { length := totalLength xs + p.length - ((at_ : Int) - 0) + k, offset := p.offset + ((at_ : Int) - 0 - totalLength xs) - k, reader := p.reader }) (by rw [hd]; simp) ?_ ?_
    · show (0 : Int) < _
      simp only
      omega
    · show _ < (0 : Int)
      simp only
      omega
  · intro hle
    obtain ⟨q1, q2, q3⟩ := gq
    have w1 : Piece.WF pt.orig { p with length := (at_ : Int) - 0 - totalLength xs } := wf_take ⟨q1, q2, q3⟩ (by omega) (by omega)
    have w2 : Piece.WF pt.orig { length := totalLength xs + p.length - ((at_ : Int) - 0) + k, offset := p.offset + ((at_ : Int) - 0 - totalLength xs) - k, reader := p.reader } := by
      refine ⟨?_, ?_, ?_⟩ <;> simp only <;> omega
    have gw : (pt.delete (-k) at_).WF := ⟨g.isOpen, by
      rw [hd]
      exact AllWF.append.2 ⟨gx, AllWF.cons.2 ⟨w1, AllWF.cons.2 ⟨w2, gy⟩⟩⟩⟩
    rw [string_wf gw, hd, show (pt.delete (-k) at_).orig = pt.orig from rfl, e1, content_append, content_append]
    simp only [content]
    have e5 := text_take (p := p) ⟨q1, q2, q3⟩ (k := (at_ : Int) - 0 - totalLength xs) (by omega) (by omega)
    have e6 : ((at_ : Int) - 0 - totalLength xs).toNat = at_ - (content pt.orig xs).length := by omega
    have htake : (content pt.orig xs ++ (p.text pt.orig ++ content pt.orig ys)).take at_ =
        content pt.orig xs ++ (p.text pt.orig).take (at_ - (content pt.orig xs).length) := by
      rw [List.take_append, List.take_of_length_le (l := content pt.orig xs) (by omega), List.take_append_of_le_length (by omega)]
    have hdrop : (content pt.orig xs ++ (p.text pt.orig ++ content pt.orig ys)).drop at_ =
        (p.text pt.orig).drop (at_ - (content pt.orig xs).length) ++ content pt.orig ys := by
      rw [List.drop_append, List.drop_eq_nil_of_le (as := content pt.orig xs) (by omega), List.nil_append, List.drop_append_of_le_length (by omega)]
    have hnew : Piece.text pt.orig { length := totalLength xs + p.length - ((at_ : Int) - 0) + k, offset := p.offset + ((at_ : Int) - 0 - totalLength xs) - k, reader := p.reader } =
        ((src pt.orig p.reader).drop (p.offset + (at_ - totalLength xs) - k).toNat).take k ++
          (p.text pt.orig).drop (at_ - (content pt.orig xs).length) := by
      simp only [Piece.text]
      have a1 : (p.offset + ((at_ : Int) - 0 - totalLength xs) - k).toNat = (p.offset + (at_ - totalLength xs) - k).toNat := by congr 1 <;> omega
      have a2 : (totalLength xs + p.length - ((at_ : Int) - 0) + k).toNat = k + (p.length.toNat - (at_ - (content pt.orig xs).length)) := by omega
      rw [a1, a2, List.take_add, List.drop_drop, List.drop_take, List.drop_drop]
      congr 3
      omega
    rw [htake, hdrop, e5, e6, hnew]
    simp

/-- **C106** (partial: expected is that nothing changes) A delete of `-k` bytes at a place within the text never leaves the text as it is:
`k` bytes are added there, or the text can no longer be read. -/
theorem C106_delete_negative {pt : PieceTable} (h : Reachable pt) {t : Bytes} (ht : pt.string = .ok t) (k at_ : Nat) (hk : 0 < k) (h1 : at_ ≤ t.length) :
    (∃ e, (pt.delete (-k) at_).string = .error e) ∨
    ∃ g : Bytes, g.length = k ∧ (pt.delete (-k) at_).string = .ok (t.take at_ ++ g ++ t.drop at_) := by
  obtain ⟨xs, p, ys, e1, e2, e3, e4, e5⟩ := delete_negative h ht k at_ hk h1
  by_cases hc : p.offset + (at_ - totalLength xs) < k
  · exact Or.inl (e4 hc)
  · refine Or.inr ⟨_, ?_, e5 (by omega)⟩
    have gp := h.good.pieces
    rw [e1] at gp
    obtain ⟨gx, gr⟩ := AllWF.append.1 gp
    rw [AllWF.cons] at gr
    obtain ⟨q1, q2, q3⟩ := gr.1
    rw [List.length_take, List.length_drop]
    omega

/-- **C106** In a table that has not been edited the bytes before the place appear twice; if there are fewer, the text is lost. -/
theorem C106_delete_negative_unedited (s : Bytes) (c : Bool) (k at_ : Nat) (hk : 0 < k) (h1 : at_ ≤ s.length) :
    (k ≤ at_ → ((newPieceTable s c s.length).delete (-k) at_).string = .ok (s.take at_ ++ s.drop (at_ - k))) ∧
    (at_ < k → ∃ e, ((newPieceTable s c s.length).delete (-k) at_).string = .error e) := by
  have hr : Reachable (newPieceTable s c s.length) := .new s c s.length (Nat.le_refl _)
  have ht : (newPieceTable s c s.length).string = .ok s := by
    rw [string_wf hr.good.toWF, content_new, List.take_length]
  obtain ⟨xs, p, ys, e1, e2, e3, e4, e5⟩ := delete_negative hr ht k at_ hk h1
  have e1' : [({ length := s.length, offset := 0, reader := .orig } : Piece)] = xs ++ p :: ys := e1
  have hx : xs = [] ∧ p = { length := s.length, offset := 0, reader := .orig } := by
    cases xs with
    | nil => exact ⟨rfl, by simp at e1'; exact e1'.1.symm⟩
    | cons x xs => simp at e1'
  obtain ⟨rfl, rfl⟩ := hx
  simp only [totalLength] at e4 e5
  refine ⟨fun h => ?_, fun h => e4 (by omega)⟩
  rw [e5 (by omega)]
  have : (0 + ((at_ : Int) - 0) - k).toNat = at_ - k := by omega
  simp only [this, src, newPieceTable]
  rw [List.append_assoc]
  congr 2
  conv => rhs; rw [← List.take_append_drop k (s.drop (at_ - k)), List.drop_drop]
  congr 2
  omega

/-- **C106** Bytes deleted before can come back that way: after the first `d` bytes are deleted, a delete of `-k` bytes at `at` puts the `k` bytes
of the original text before that place back in, deleted ones included. -/
theorem C106_deleted_return (s : Bytes) (c : Bool) (d k at_ : Nat) (hd : 0 < d) (hk : 0 < k) (ha : 0 < at_) (h1 : d + at_ ≤ s.length) (h2 : k ≤ d + at_) :
    (((newPieceTable s c s.length).delete d 0).delete (-k) at_).string =
      .ok ((s.drop d).take at_ ++ (s.drop (d + at_ - k)).take k ++ s.drop (d + at_)) := by
  have hr : Reachable (newPieceTable s c s.length) := .new s c s.length (Nat.le_refl _)
  have ht : (newPieceTable s c s.length).string = .ok s := by
    rw [string_wf hr.good.toWF, content_new, List.take_length]
  have hr' : Reachable ((newPieceTable s c s.length).delete d 0) := .delete d 0 (by omega) (by omega) hr (.inr ⟨s, ht, by omega⟩)
  have ht' : ((newPieceTable s c s.length).delete d 0).string = .ok (s.drop d) := by
    have := C02_delete_cuts hr ht d 0 (by omega)
    simpa using this
  have hp : ((newPieceTable s c s.length).delete d 0).pieces = [{ length := 0, offset := 0, reader := .orig },
      { length := s.length - d, offset := d, reader := .orig }] := by
    rw [delete_pieces (by omega) (by omega) (.inr (by simp [newPieceTable, totalLength]; omega))]
    simp only [newPieceTable, deleteLoop]
    rw [if_pos (by omega), if_pos (by omega)]
    simp
  obtain ⟨xs, p, ys, e1, e2, e3, e4, e5⟩ := delete_negative hr' ht' k at_ hk (by rw [List.length_drop]; omega)
  rw [hp] at e1
  have hx : xs = [{ length := 0, offset := 0, reader := .orig }] ∧ p = { length := s.length - d, offset := d, reader := .orig } := by
    cases xs with
    | nil =>
      simp only [List.nil_append, List.cons.injEq] at e1
      rw [← e1.1] at e3
      simp only [totalLength] at e3
      omega
    | cons x xs =>
      cases xs with
      | nil => simp at e1; exact ⟨by rw [e1.1], e1.2.1.symm⟩
      | cons y xs => simp at e1
  obtain ⟨rfl, rfl⟩ := hx
  simp only [totalLength] at e5
  rw [e5 (by omega)]
  have : ((d : Int) + ((at_ : Int) - (0 + 0)) - k).toNat = d + at_ - k := by omega
  simp only [this, src, newPieceTable, PieceTable.delete, List.drop_drop]

/-- **C106** (the part that holds) Beyond the end of the text nothing is changed, whatever the length. -/
theorem C106_beyond_partial {pt : PieceTable} (h : Reachable pt) {t : Bytes} (ht : pt.string = .ok t) (length : Int) (at_ : Nat) (h1 : t.length < at_) :
    pt.delete length at_ = pt := by
  have g := h.good
  rw [string_wf g.toWF] at ht
  cases ht
  have hl := content_length g.pieces
  simp only [PieceTable.delete]
  rw [deleteLoop_beyond _ _ _ _ pt.orig 0 g.pieces (by omega)]

/-- Two bytes too few: `Delete(-2, 3)` on `hello` gives `helello`. -/
example : ((newPieceTable b!"hello" true 5).delete (-2) 3).string = .ok b!"helello" :=
  (C106_delete_negative_unedited b!"hello" true 2 3 (by decide) (by decide)).1 (by decide)

example : ∃ e, ((newPieceTable b!"hello" true 5).delete (-3) 2).string = .error e :=
  (C106_delete_negative_unedited b!"hello" true 3 2 (by decide) (by decide)).2 (by decide)

/-- A deleted `c` comes back. -/
example : (((newPieceTable b!"abcdef" true 6).delete 3 0).delete (-2) 1).string = .ok b!"dcdef" :=
  C106_deleted_return b!"abcdef" true 3 2 1 (by decide) (by decide) (by decide) (by decide) (by decide)

example : (∃ e, (demo.delete (-1) 2).string = .error e) ∨ ∃ g : Bytes, g.length = 1 ∧ (demo.delete (-1) 2).string = .ok (b!"hX" ++ g ++ b!"Yllo") :=
  C106_delete_negative demo_reachable demo_string 1 2 (by decide) (by decide)

example : demo.delete (-1) 7 = demo := C106_beyond_partial demo_reachable demo_string (-1) 7 (by decide)

end Txt
