import Verif.Txt.Props

/-! # C05: which bytes a delete past the end leaves, by what was edited before -/

namespace Txt
open Go

/-- A delete past the end changes only the first piece reaching the position. -/
theorem deleteLoop_at (length at_ : Int) (hl : 0 ≤ length) : ∀ (xs : List Piece) (orig : Bytes) (end_ : Int) (p : Piece) (ys : List Piece),
    AllWF orig (xs ++ p :: ys) → (xs = [] ∨ end_ + totalLength xs < at_) → at_ ≤ end_ + totalLength xs + p.length →
    end_ + totalLength (xs ++ p :: ys) < at_ + length →
    deleteLoop (at_ + length) length at_ end_ (xs ++ p :: ys) = xs ++ { p with length := at_ - end_ - totalLength xs } :: ys := by
  intro xs
  induction xs with
  | nil =>
    intro orig end_ p ys h _ h2 h3
    simp only [List.nil_append, totalLength] at h h2 h3 ⊢
    rw [AllWF.cons] at h
    have hn := totalLength_nonneg h.2
    simp only [deleteLoop]
    rw [if_pos (by omega), if_neg (by omega), deleteTail_past length at_ hl ys orig _ _ h.2 (by omega)]
    simp
  | cons x xs ih =>
    intro orig end_ p ys h h1 h2 h3
    simp only [List.cons_append] at h
    rw [AllWF.cons] at h
    rcases h1 with h1 | h1
    · cases h1
    simp only [List.cons_append, totalLength] at h1 h2 h3 ⊢
    have hxs : AllWF orig xs := fun q hq => h.2 q (by simp [hq])
    have hn := totalLength_nonneg hxs
    simp only [deleteLoop]
    rw [if_neg (by omega), ih orig (end_ + x.length) p ys h.2 (.inr (by omega)) (by omega) (by omega)]
    congr 3
    congr 1
    omega

/-- The pieces after an insertion: what was before it ends with a piece of its own, and so does the new text. -/
theorem insertLoop_shape (orig : Bytes) (b text : Bytes) (at_ : Int) (ps : List Piece) :
    ∀ idx, AllWF orig ps → ps ≠ [] → idx ≤ at_ → at_ ≤ idx + totalLength ps →
      ∃ xs p ys, ps = xs ++ p :: ys ∧ (xs = [] ∨ idx + totalLength xs < at_) ∧ at_ ≤ idx + totalLength xs + p.length ∧
        insertLoop (some b) text at_ idx ps = .ok (xs ++ { p with length := at_ - idx - totalLength xs } ::
          ⟨text.length, b.length, .mem (b ++ text)⟩ ::
          { p with length := p.length - (at_ - idx - totalLength xs), offset := p.offset + (at_ - idx - totalLength xs) } :: ys, b ++ text) := by
  induction ps with
  | nil => intro _ _ h; exact absurd rfl h
  | cons p ps ih =>
    intro idx h _ h1 h2
    rw [AllWF.cons] at h
    simp only [totalLength] at h2
    simp only [insertLoop]
    split
    · next hge =>
      refine ⟨[], p, ps, rfl, .inl rfl, by simp only [totalLength]; omega, ?_⟩
      have : at_ - (idx + p.length - p.length) = at_ - idx - totalLength [] := by simp only [totalLength]; omega
      rw [this]; rfl
    · next hlt =>
      have hne : ps ≠ [] := by rintro rfl; simp only [totalLength] at h2; omega
      obtain ⟨xs, q, ys, e1, e2, e3, e4⟩ := ih (idx + p.length) h.2 hne (by omega) (by omega)
      have hxs : 0 ≤ totalLength xs := totalLength_nonneg (fun q hq => h.2 q (by rw [e1]; simp [hq]))
      refine ⟨p :: xs, q, ys, by rw [e1]; rfl, .inr ?_, by simp only [totalLength]; omega, ?_⟩
      · simp only [totalLength]
        rcases e2 with rfl | e2
        · simp only [totalLength]; omega
        · omega
      · rw [e4]
        have : at_ - (idx + p.length) - totalLength xs = at_ - idx - totalLength (p :: xs) := by simp only [totalLength]; omega
        rw [this]; rfl

/-- A piece of the table ends at this position, and it is the first piece to reach it. -/
def Edge (pt : PieceTable) (k : Int) : Prop :=
  ∃ xs p ys, pt.pieces = xs ++ p :: ys ∧ (xs = [] ∨ totalLength xs < k) ∧ totalLength xs + p.length = k

theorem edge_delete {pt : PieceTable} (g : pt.Good) {k length : Int} (hk : 0 ≤ k) (hl : 0 ≤ length) (he : Edge pt k)
    (h2 : totalLength pt.pieces < k + length) (h3 : k + length < 2 ^ 63) : pt.delete length k = pt := by
  obtain ⟨xs, p, ys, e1, e2, e3⟩ := he
  have hf : Fits pt length k := .inl h3
  have e := delete_pieces hl hk hf
  have gp := g.pieces
  rw [e1] at gp h2
  rw [e1, deleteLoop_at length k hl xs pt.orig 0 p ys gp (by simpa using e2) (by omega) (by omega)] at e
  have hp : ({ p with length := k - 0 - totalLength xs } : Piece) = p := by
    have : k - 0 - totalLength xs = p.length := by omega
    rw [this]
  rw [hp, ← e1] at e
  cases pt
  simp only [PieceTable.delete] at e ⊢
  rw [e]

theorem insert_shape {pt pt' : PieceTable} (g : pt.Good) (x : Bytes) (a : Int) (h0 : 0 ≤ a) (h1 : a ≤ totalLength pt.pieces)
    (hi : pt.insert x a = .ok pt') :
    ∃ xs p ys b, pt.pieces = xs ++ p :: ys ∧ (xs = [] ∨ totalLength xs < a) ∧ a ≤ totalLength xs + p.length ∧
      pt'.pieces = xs ++ { p with length := a - totalLength xs } :: ⟨x.length, (b : Bytes).length, .mem (b ++ x)⟩ ::
          { p with length := p.length - (a - totalLength xs), offset := p.offset + (a - totalLength xs) } :: ys ∧ pt'.orig = pt.orig := by
  obtain ⟨⟨ho, hw⟩, hb, hne⟩ := g
  obtain ⟨b, hb⟩ := Option.ne_none_iff_exists'.1 hb
  obtain ⟨xs, p, ys, e1, e2, e3, e4⟩ := insertLoop_shape pt.orig b x a pt.pieces 0 hw hne h0 (by omega)
  have e : pt.insert x a = .ok { pt with
      pieces := xs ++ { p with length := a - 0 - totalLength xs } :: ⟨x.length, (b : Bytes).length, .mem (b ++ x)⟩ ::
          { p with length := p.length - (a - 0 - totalLength xs), offset := p.offset + (a - 0 - totalLength xs) } :: ys,
      append := some (b ++ x) } := by
    unfold PieceTable.insert
    split
    · next heq => exact absurd heq hne
    · rw [hb, e4]; rfl
  rw [e] at hi
  cases hi
  exact ⟨xs, p, ys, b, e1, by simpa using e2, by omega, by simp, rfl⟩

theorem insert_edge_before {pt pt' : PieceTable} (g : pt.Good) (x : Bytes) (a : Int) (h0 : 0 ≤ a) (h1 : a ≤ totalLength pt.pieces)
    (hi : pt.insert x a = .ok pt') : Edge pt' a := by
  obtain ⟨xs, p, ys, b, e1, e2, e3, e4, _⟩ := insert_shape g x a h0 h1 hi
  exact ⟨xs, _, _, e4, e2, by simp only; omega⟩

theorem insert_edge_after {pt pt' : PieceTable} (g : pt.Good) (x : Bytes) (a : Int) (h0 : 0 ≤ a) (h1 : a ≤ totalLength pt.pieces)
    (hx : x ≠ []) (hi : pt.insert x a = .ok pt') : Edge pt' (a + x.length) := by
  obtain ⟨xs, p, ys, b, e1, e2, e3, e4, _⟩ := insert_shape g x a h0 h1 hi
  have := List.length_pos_iff.2 hx
  refine ⟨xs ++ [{ p with length := a - totalLength xs }], ⟨x.length, b.length, .mem (b ++ x)⟩,
    { p with length := p.length - (a - totalLength xs), offset := p.offset + (a - totalLength xs) } :: ys,
    by rw [e4]; simp only [List.append_assoc, List.cons_append, List.nil_append], .inr ?_, ?_⟩
  · simp only [totalLength_append, totalLength]; omega
  · simp only [totalLength_append, totalLength]; omega

/-- After a delete within the text a piece ends where it was. -/
theorem deleteLoop_edge (orig : Bytes) (length at_ : Int) (hl : 0 ≤ length) (ps : List Piece) : ∀ end_, AllWF orig ps → ps ≠ [] → end_ ≤ at_ →
    at_ - end_ + length ≤ totalLength ps →
    ∃ xs p ys, deleteLoop (at_ + length) length at_ end_ ps = xs ++ p :: ys ∧ (xs = [] ∨ end_ + totalLength xs < at_) ∧
      end_ + totalLength xs + p.length = at_ := by
  induction ps with
  | nil => intro _ _ h; exact absurd rfl h
  | cons p ps ih =>
    intro end_ h _ h1 h2
    rw [AllWF.cons] at h
    simp only [totalLength] at h2
    simp only [deleteLoop]
    split
    · split
      · exact ⟨[], _, _, rfl, .inl rfl, by simp only [totalLength]; omega⟩
      · exact ⟨[], _, _, rfl, .inl rfl, by simp only [totalLength]; omega⟩
    · have hne : ps ≠ [] := by rintro rfl; simp only [totalLength] at h2; omega
      obtain ⟨xs, q, ys, e1, e2, e3⟩ := ih (end_ + p.length) h.2 hne (by omega) (by omega)
      refine ⟨p :: xs, q, ys, by rw [e1]; rfl, .inr ?_, by simp only [totalLength]; omega⟩
      simp only [totalLength]
      rcases e2 with rfl | e2
      · simp only [totalLength]; omega
      · omega

theorem delete_edge {pt : PieceTable} (g : pt.Good) (length a : Int) (hl : 0 ≤ length) (h0 : 0 ≤ a) (h1 : a + length ≤ totalLength pt.pieces) :
    Edge (pt.delete length a) a := by
  have e := delete_pieces hl h0 (.inr h1 : Fits pt length a)
  obtain ⟨xs, p, ys, e1, e2, e3⟩ := deleteLoop_edge pt.orig length a hl pt.pieces 0 g.pieces g.nonempty h0 (by omega)
  exact ⟨xs, p, ys, by rw [e, e1], by simpa using e2, by omega⟩

/-- **C05** After text has been inserted, a delete past the end starting where it was inserted removes nothing, not even the new text. -/
theorem C05_ignored_at_insert {pt pt' : PieceTable} (h : Reachable pt) {t : Bytes} (ht : pt.string = .ok t) (x : Bytes) (a : Nat) (ha : a ≤ t.length)
    (hi : pt.insert x a = .ok pt') (length : Nat) (h2 : t.length + x.length < a + length) (h3 : a + length < 2 ^ 63) : pt'.delete length a = pt' := by
  have g := h.good
  rw [string_wf g.toWF] at ht
  cases ht
  have hl := content_length g.pieces
  obtain ⟨pt2, e, g2, _, _, c2⟩ := good_insert g x a (by omega) (by omega)
  rw [hi] at e
  cases e
  have hl2 := content_length g2.pieces
  rw [c2] at hl2
  simp only [List.length_append, List.length_take, List.length_drop] at hl2
  exact edge_delete g2 (by omega) (by omega) (insert_edge_before g x a (by omega) (by omega) hi) (by omega) (by omega)

/-- **C05** Started after the first byte of the new text or later, but not after its end, it removes the rest of the new text only. In particular
started right after it, it removes nothing. -/
theorem C05_only_inserted {pt pt' : PieceTable} (h : Reachable pt) {t : Bytes} (ht : pt.string = .ok t) (x : Bytes) (a j : Nat) (ha : a ≤ t.length)
    (hj : 0 < j) (hjx : j ≤ x.length) (hi : pt.insert x a = .ok pt') (length : Nat) (h2 : t.length + x.length < a + j + length)
    (h3 : a + j + length < 2 ^ 63) :
    (pt'.delete length (a + j : Nat)).string = .ok (t.take a ++ x.take j ++ t.drop a) := by
  have g := h.good
  rw [string_wf g.toWF] at ht
  cases ht
  have hl := content_length g.pieces
  obtain ⟨pt2, e, g2, o2, _, c2⟩ := good_insert g x a (by omega) (by omega)
  rw [hi] at e
  cases e
  have hl2 := content_length g2.pieces
  rw [c2] at hl2
  simp only [List.length_append, List.length_take, List.length_drop] at hl2
  obtain ⟨xs, p, ys, b, e1, e2, e3, e4, _⟩ := insert_shape g x a (by omega) (by omega) hi
  have hf : Fits pt' length (a + j : Nat) := .inl (by omega)
  have g' := good_delete g2 length (a + j : Nat) (by omega) (by omega) hf
  rw [string_wf g'.1.toWF, g'.2, delete_pieces (by omega) (by omega) hf]
  have gp := g2.pieces
  have e5 : pt'.pieces = (xs ++ [{ p with length := a - totalLength xs }]) ++ ⟨x.length, (b : Bytes).length, .mem (b ++ x)⟩ ::
      ({ p with length := p.length - (a - totalLength xs), offset := p.offset + (a - totalLength xs) } :: ys) := by
    rw [e4]; simp only [List.append_assoc, List.cons_append, List.nil_append]
  have ht2 : totalLength (xs ++ [({ p with length := a - totalLength xs } : Piece)]) = a := by
    simp only [totalLength_append, totalLength]; omega
  rw [e5] at gp hl2
  rw [e5, deleteLoop_at length (a + j : Nat) (by omega) _ pt'.orig 0 _ _ gp (.inr (by rw [ht2]; omega)) (by rw [ht2]; simp only; omega) (by omega), ht2]
  have hnew : Piece.text pt'.orig { (⟨x.length, (b : Bytes).length, .mem (b ++ x)⟩ : Piece) with length := ((a + j : Nat) : Int) - 0 - a } = x.take j := by
    have : ((a + j : Nat) : Int) - 0 - a = j := by omega
    rw [this]
    simp [Piece.text, src]
  rw [e5, content_append] at c2
  rw [content_append]
  simp only [content] at c2 ⊢
  rw [hnew]
  have hx : Piece.text pt'.orig (⟨x.length, (b : Bytes).length, .mem (b ++ x)⟩ : Piece) = x := by simp [Piece.text, src]
  rw [hx, Int.toNat_natCast, List.append_assoc] at c2
  have hpre : (content pt'.orig (xs ++ [({ p with length := a - totalLength xs } : Piece)])).length = ((content pt.orig pt.pieces).take a).length := by
    have gx : AllWF pt'.orig (xs ++ [({ p with length := a - totalLength xs } : Piece)]) := (AllWF.append.1 gp).1
    have := content_length gx
    simp only [List.length_take]
    omega
  obtain ⟨c3, c4⟩ := List.append_inj c2 hpre
  rw [c3, List.append_cancel_left c4, List.append_assoc]

/-- **C05** After a delete within the text, a delete past the end starting at the same place removes nothing. -/
theorem C05_ignored_at_delete {pt : PieceTable} (h : Reachable pt) {t : Bytes} (ht : pt.string = .ok t) (n a : Nat) (ha : a + n ≤ t.length)
    (length : Nat) (h2 : t.length < a + n + length) (h3 : a + length < 2 ^ 63) : (pt.delete n a).delete length a = pt.delete n a := by
  have g := h.good
  have ht0 := ht
  rw [string_wf g.toWF] at ht
  cases ht
  have hl := content_length g.pieces
  have g' := good_delete g n a (by omega) (by omega) (.inr (by omega))
  have hs := C02_delete_cuts h ht0 n a ha
  rw [string_wf g'.1.toWF] at hs
  have hl2 := content_length g'.1.pieces
  rw [Except.ok.inj hs] at hl2
  simp only [List.length_append, List.length_take, List.length_drop] at hl2
  exact edge_delete g'.1 (by omega) (by omega) (delete_edge g n a (by omega) (by omega) (by omega)) (by omega) (by omega)

example : ∃ pt', demo.insert b!"z" 2 = .ok pt' ∧ pt'.string = .ok b!"hXzYllo" ∧ pt'.delete 100 2 = pt' ∧
    (pt'.delete 100 3).string = .ok b!"hXzYllo" := by
  obtain ⟨pt', e, r, s⟩ := C01_insert_splices demo_reachable demo_string b!"z" 2 (by decide)
  refine ⟨pt', e, s, C05_ignored_at_insert demo_reachable demo_string b!"z" 2 (by decide) e 100 (by decide) (by decide), ?_⟩
  exact C05_only_inserted demo_reachable demo_string b!"z" 2 1 (by decide) (by decide) (by decide) e 100 (by decide) (by decide)

example : (demo.delete 2 1).delete 100 1 = demo.delete 2 1 :=
  C05_ignored_at_delete demo_reachable demo_string 2 1 (by decide) 100 (by decide) (by decide)

/-- The last of these pieces ends with this text. -/
def EndsIn (orig : Bytes) (ps : List Piece) (z : Bytes) : Prop := ∃ xs p y, ps = xs ++ [p] ∧ p.text orig = y ++ z

/-- The last piece of the table ends with this text. -/
def Tail (pt : PieceTable) (z : Bytes) : Prop := EndsIn pt.orig pt.pieces z

theorem tail_new (s : Bytes) (c : Bool) (n : Nat) (y z : Bytes) (h : s.take n = y ++ z) : Tail (newPieceTable s c n) (z) :=
  ⟨[], _, y, rfl, by simpa [Piece.text, newPieceTable, src] using h⟩

theorem tail_drop {pt : PieceTable} {y z : Bytes} (h : Tail pt (y ++ z)) : Tail pt z := by
  obtain ⟨xs, p, w, e1, e2⟩ := h
  exact ⟨xs, p, w ++ y, e1, by rw [e2, List.append_assoc]⟩

/-- The text ends with what the last piece ends with. -/
theorem tail_text {pt : PieceTable} {z : Bytes} (h : Tail pt z) : ∃ y, content pt.orig pt.pieces = y ++ z := by
  obtain ⟨xs, p, w, e1, e2⟩ := h
  exact ⟨content pt.orig xs ++ w, by rw [e1, content_append]; simp [content, e2]⟩

theorem tail_insert {pt pt' : PieceTable} (g : pt.Good) {z : Bytes} (hz : z ≠ []) (h : Tail pt z) (x : Bytes) (a : Int) (h0 : 0 ≤ a)
    (h1 : a + z.length ≤ totalLength pt.pieces) (hi : pt.insert x a = .ok pt') : Tail pt' z := by
  have hzl := List.length_pos_iff.2 hz
  obtain ⟨xs, p, ys, b, e1, e2, e3, e4, e5⟩ := insert_shape g x a h0 (by omega) hi
  obtain ⟨us, q, w, f1, f2⟩ := h
  have gp := g.pieces
  rw [e1] at gp h1
  have wp : p.WF pt.orig := gp p (by simp)
  rcases List.eq_nil_or_concat ys with hy | ⟨ys', y, hy⟩
  · subst hy
    rw [f1] at e1
    obtain ⟨i1, i2⟩ := List.append_inj' e1 rfl
    cases i2
    subst i1
    simp only [totalLength_append, totalLength] at h1
    have hx0 : totalLength us ≤ a := by
      rcases e2 with rfl | e2
      · simpa [totalLength] using h0
      · omega
    have hl := text_length wp
    rw [f2] at hl
    simp only [List.length_append] at hl
    refine ⟨us ++ [{ p with length := a - totalLength us }, ⟨x.length, b.length, .mem (b ++ x)⟩],
      { p with length := p.length - (a - totalLength us), offset := p.offset + (a - totalLength us) }, w.drop (a - totalLength us).toNat,
      by rw [e4]; simp, ?_⟩
    rw [e5, text_drop wp (by omega) (by omega), f2, List.drop_append_of_le_length (by omega)]
  · have e6 : us ++ [q] = (xs ++ p :: ys') ++ [y] := by rw [← f1, e1, hy]; simp
    obtain ⟨i1, i2⟩ := List.append_inj' e6 rfl
    cases i2
    exact ⟨xs ++ { p with length := a - totalLength xs } :: ⟨x.length, b.length, .mem (b ++ x)⟩ ::
      { p with length := p.length - (a - totalLength xs), offset := p.offset + (a - totalLength xs) } :: ys', q, w,
      by rw [e4, hy]; simp, by rw [e5]; exact f2⟩

theorem endsIn_cons {orig : Bytes} {ps : List Piece} {z : Bytes} (p : Piece) (h : EndsIn orig ps z) : EndsIn orig (p :: ps) z := by
  obtain ⟨xs, q, y, e1, e2⟩ := h
  exact ⟨p :: xs, q, y, by rw [e1]; rfl, e2⟩

theorem endsIn_one {orig : Bytes} {p : Piece} {y z : Bytes} (h : p.text orig = y ++ z) : EndsIn orig [p] z := ⟨[], p, y, rfl, h⟩

theorem endsIn_of_cons {orig : Bytes} {p : Piece} {ps : List Piece} {z : Bytes} (h : EndsIn orig (p :: ps) z) :
    (ps = [] ∧ ∃ y, p.text orig = y ++ z) ∨ EndsIn orig ps z := by
  obtain ⟨xs, q, y, e1, e2⟩ := h
  cases xs with
  | nil => cases e1; exact .inl ⟨rfl, y, e2⟩
  | cons x xs => cases e1; exact .inr ⟨xs, q, y, rfl, e2⟩

/-- Dropping bytes at the front of the first piece leaves the end alone if it is short enough. -/
theorem endsIn_trim {orig : Bytes} {p : Piece} {ps : List Piece} {z : Bytes} (hw : p.WF orig) (h : EndsIn orig (p :: ps) z) (k : Int) (h0 : 0 ≤ k)
    (hk : k ≤ p.length) (h1 : k + z.length ≤ p.length + totalLength ps) :
    EndsIn orig ({ p with length := p.length - k, offset := p.offset + k } :: ps) z := by
  rcases endsIn_of_cons h with ⟨rfl, y, e⟩ | h
  · have hl := text_length hw
    rw [e] at hl
    simp only [List.length_append, totalLength] at hl h1
    exact endsIn_one (y := y.drop k.toNat) (by rw [text_drop hw h0 hk, e, List.drop_append_of_le_length (by omega)])
  · exact endsIn_cons _ h

theorem deleteTail_ends (orig : Bytes) (length at_ : Int) (z : Bytes) (ps : List Piece) : ∀ end_ mid, AllWF orig ps → EndsIn orig ps z →
    0 ≤ at_ + length - end_ → at_ + length - end_ + z.length ≤ totalLength ps → EndsIn orig (deleteTail (at_ + length) length at_ end_ mid ps) z := by
  induction ps with
  | nil => intro _ _ _ h; obtain ⟨xs, p, y, e, _⟩ := h; simp at e
  | cons p ps ih =>
    intro end_ mid hw h h0 h1
    rw [AllWF.cons] at hw
    simp only [totalLength] at h1
    simp only [deleteTail]
    split
    · exact endsIn_trim hw.1 h _ h0 (by omega) (by omega)
    · next hlt =>
      rcases endsIn_of_cons h with ⟨rfl, y, e⟩ | h
      · simp only [totalLength] at h1; omega
      · exact ih _ _ hw.2 h (by omega) (by omega)

theorem deleteLoop_ends (orig : Bytes) (length at_ : Int) (hl : 0 ≤ length) (z : Bytes) (ps : List Piece) : ∀ end_, AllWF orig ps → EndsIn orig ps z →
    end_ ≤ at_ → at_ + length - end_ + z.length ≤ totalLength ps → EndsIn orig (deleteLoop (at_ + length) length at_ end_ ps) z := by
  induction ps with
  | nil => intro _ _ h; obtain ⟨xs, p, y, e, _⟩ := h; simp at e
  | cons p ps ih =>
    intro end_ hw h h0 h1
    rw [AllWF.cons] at hw
    simp only [totalLength] at h1
    simp only [deleteLoop]
    split
    · split
      · next hge =>
        have := endsIn_trim hw.1 h (at_ - end_ + length) (by omega) (by omega) (by omega)
        have e : end_ + p.length - (at_ + length) = p.length - (at_ - end_ + length) := by omega
        rw [e]
        exact endsIn_cons _ this
      · next hlt =>
        rcases endsIn_of_cons h with ⟨rfl, y, e⟩ | h
        · simp only [totalLength] at h1; omega
        · exact endsIn_cons _ (deleteTail_ends orig length at_ z ps _ [] hw.2 h (by omega) (by omega))
    · rcases endsIn_of_cons h with ⟨rfl, y, e⟩ | h
      · simp only [totalLength] at h1; omega
      · exact endsIn_cons _ (ih _ hw.2 h (by omega) (by omega))

theorem tail_delete {pt : PieceTable} (g : pt.Good) {z : Bytes} (h : Tail pt z) (n a : Int) (hn : 0 ≤ n) (h0 : 0 ≤ a)
    (h1 : a + n + z.length ≤ totalLength pt.pieces) : Tail (pt.delete n a) z := by
  have e := delete_pieces hn h0 (.inr (by omega) : Fits pt n a)
  have := deleteLoop_ends pt.orig n a hn z pt.pieces 0 g.pieces h h0 (by omega)
  rw [← e] at this
  exact this

/-- **C05** (the part that holds) A delete past the end truncates the text if it starts within the last piece and not at its beginning. -/
theorem C05_within_last_partial {pt : PieceTable} (h : Reachable pt) {t : Bytes} (ht : pt.string = .ok t) (y z : Bytes) (hy : y ≠ [])
    (hz : Tail pt (y ++ z)) (length : Nat) (h2 : z.length < length) (h3 : t.length - z.length + length < 2 ^ 63) :
    (pt.delete length (t.length - z.length : Nat)).string = .ok (t.take (t.length - z.length)) := by
  have g := h.good
  have ht0 := ht
  rw [string_wf g.toWF] at ht
  cases ht
  have hl := content_length g.pieces
  obtain ⟨xs, p, w, e1, e2⟩ := hz
  have hyl := List.length_pos_iff.2 hy
  have gp := g.pieces
  rw [e1] at gp
  have gx := content_length (AllWF.append.1 gp).1
  have hp : p.WF pt.orig := gp p (by simp)
  have hpl := text_length hp
  rw [e2] at hpl
  have hc : content pt.orig pt.pieces = content pt.orig xs ++ (w ++ (y ++ z)) := by rw [e1, content_append]; simp [content, e2]
  have hcl := congrArg List.length hc
  simp only [List.length_append] at hcl hpl
  rw [← Except.ok.inj ((string_wf g.toWF).symm.trans ht0)] at *
  generalize hk : (content pt.orig pt.pieces).length - z.length = k at *
  have hf : Fits pt length k := .inl (by omega)
  have g' := good_delete g length k (by omega) (by omega) hf
  have htl : totalLength (xs ++ [p]) = totalLength xs + p.length := by simp [totalLength_append, totalLength]
  rw [string_wf g'.1.toWF, g'.2, delete_pieces (by omega) (by omega) hf, e1,
    deleteLoop_at length k (by omega) xs pt.orig 0 p [] gp (.inr (by omega)) (by omega) (by rw [htl]; omega), ← e1, hc, content_append]
  simp only [content, List.append_nil]
  rw [text_take hp (by omega) (by omega), e2, List.take_append (l₁ := content pt.orig xs), List.take_of_length_le (l := content pt.orig xs) (by omega)]
  congr 3
  omega

end Txt
