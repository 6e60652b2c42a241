import Verif.Txt.Props

/-!
# Which bytes of a text come from the file

A piece table copies neither the original text nor what is inserted. Here: which bytes of the text are read from the original source, in terms of
the edits alone. This decides what can still be read when the source has been closed (C08, C176).
-/

namespace Txt
open Go

/-- A text of which `own` says, byte by byte, whether it was inserted: if the bytes of the source were others (`f`), exactly those that were not
inserted would be others. -/
def Traced (pt : PieceTable) (own : List Bool) : Prop :=
  pt.closable = true ∧ own.length = (content pt.orig pt.pieces).length ∧
  ∀ f : UInt8 → UInt8, content (pt.orig.map f) pt.pieces = List.zipWith (fun b k => if k then b else f b) (content pt.orig pt.pieces) own

/-- The table over another source. -/
def shade (f : UInt8 → UInt8) (pt : PieceTable) : PieceTable := { pt with orig := pt.orig.map f }

theorem allWF_map (f : UInt8 → UInt8) {orig : Bytes} {ps : List Piece} (h : AllWF orig ps) : AllWF (orig.map f) ps := by
  intro p hp
  obtain ⟨h1, h2, h3⟩ := h p hp
  refine ⟨h1, h2, ?_⟩
  cases hr : p.reader <;> rw [hr] at h3 <;> simpa [src] using h3

theorem good_shade (f : UInt8 → UInt8) {pt : PieceTable} (h : pt.Good) : (shade f pt).Good := by
  obtain ⟨⟨ho, hw⟩, hb, hne⟩ := h
  exact ⟨⟨ho, allWF_map f hw⟩, hb, hne⟩

theorem insert_shade (f : UInt8 → UInt8) {pt pt' : PieceTable} (x : Bytes) (a : Int) (h : pt.insert x a = .ok pt') :
    (shade f pt).insert x a = .ok (shade f pt') := by
  unfold PieceTable.insert at h ⊢
  simp only [shade]
  cases hp : pt.pieces with
  | nil =>
    rw [hp] at h
    cases h
    simp
  | cons p ps =>
    rw [hp] at h
    simp only at h ⊢
    cases hl : insertLoop pt.append x a 0 (p :: ps) with
    | error e => rw [hl] at h; cases h
    | ok r => rw [hl] at h; cases h; rfl

theorem length_shade (f : UInt8 → UInt8) {orig : Bytes} {ps : List Piece} (h : AllWF orig ps) :
    (content (orig.map f) ps).length = (content orig ps).length := by
  have a := content_length h
  have b := content_length (allWF_map f h)
  omega

theorem traced_new (s : Bytes) : Traced (newPieceTable s true s.length) (List.replicate s.length false) := by
  refine ⟨rfl, by simp [newPieceTable, content, Piece.text, src], fun f => ?_⟩
  simp only [newPieceTable, content, Piece.text, src]
  simp only [Int.toNat_zero, List.drop_zero, Int.toNat_natCast, List.append_nil, List.take_length]
  rw [List.take_of_length_le (by simp)]
  induction s with
  | nil => rfl
  | cons b s ih => simp [List.replicate_succ, ← ih]

theorem traced_insert {pt pt' : PieceTable} {own : List Bool} (g : pt.Good) (h : Traced pt own) (x : Bytes) (a : Nat)
    (ha : a ≤ (content pt.orig pt.pieces).length) (e : pt.insert x a = .ok pt') :
    Traced pt' (own.take a ++ List.replicate x.length true ++ own.drop a) := by
  obtain ⟨h1, h2, h3⟩ := h
  obtain ⟨q, e1, -, o1, c1, t1⟩ := good_insert g x a (by omega) (by omega)
  rw [e] at e1
  cases e1
  refine ⟨by rw [c1, h1], by rw [t1]; simp [h2], fun f => ?_⟩
  obtain ⟨q, e2, -, -, -, t2⟩ := good_insert (good_shade f g) x a (by omega) (by simp only [shade]; rw [length_shade f g.pieces]; omega)
  rw [insert_shade f x a e] at e2
  cases e2
  simp only [shade, o1] at t2
  rw [o1] at t1 ⊢
  rw [t2, t1, h3 f]
  simp only [Int.toNat_natCast, List.take_zipWith, List.drop_zipWith]
  rw [List.zipWith_append (by simp [h2]), List.zipWith_append (by simp [h2])]
  congr 2
  clear t1 t2 e
  induction x with
  | nil => rfl
  | cons b x ih => simp [List.replicate_succ, ← ih]

theorem traced_delete {pt : PieceTable} {own : List Bool} (g : pt.Good) (h : Traced pt own) (n a : Nat)
    (ha : a + n ≤ (content pt.orig pt.pieces).length) :
    Traced (pt.delete n a) (own.take a ++ own.drop (a + n)) := by
  obtain ⟨h1, h2, h3⟩ := h
  have hl := content_length g.pieces
  have hp := delete_pieces (pt := pt) (n := n) (a := a) (by omega) (by omega) (.inr (by omega))
  have cut : ∀ orig, AllWF orig pt.pieces → content orig (pt.delete n a).pieces = (content orig pt.pieces).take a ++ (content orig pt.pieces).drop (a + n) := by
    intro orig hw
    rw [hp]
    have := (deleteLoop_ok orig n a (by omega) pt.pieces 0 hw (by omega)).2.1 (by omega)
    simpa using this
  refine ⟨h1, ?_, fun f => ?_⟩
  · show _ = (content pt.orig (pt.delete n a).pieces).length
    rw [cut _ g.pieces]
    simp [h2]
  · show content (pt.orig.map f) (pt.delete n a).pieces = List.zipWith _ (content pt.orig (pt.delete n a).pieces) _
    rw [cut _ g.pieces, cut _ (allWF_map f g.pieces), h3 f]
    rw [List.zipWith_append (by simp [h2])]
    simp only [List.take_zipWith, List.drop_zipWith]

theorem content_typed (f : UInt8 → UInt8) {orig : Bytes} : ∀ {ps : List Piece}, (∀ p ∈ ps, p.reader = .orig → p.length = 0) →
    content (orig.map f) ps = content orig ps := by
  intro ps
  induction ps with
  | nil => intro _; rfl
  | cons p ps ih =>
    intro h
    have hp := h p (by simp)
    simp only [content, ih (fun q hq => h q (by simp [hq]))]
    congr 1
    cases hr : p.reader with
    | orig => simp [Piece.text, hp hr]
    | mem b => simp [Piece.text, src, hr]

theorem content_read (f : UInt8 → UInt8) (hf : ∀ b, f b ≠ b) {orig : Bytes} : ∀ {ps : List Piece}, AllWF orig ps →
    content (orig.map f) ps = content orig ps → ∀ p ∈ ps, p.reader = .orig → p.length = 0 := by
  intro ps
  induction ps with
  | nil => intro _ _ p hp; cases hp
  | cons p ps ih =>
    intro hw e q hq ho
    rw [AllWF.cons] at hw
    simp only [content] at e
    obtain ⟨e1, e2⟩ := List.append_inj e (by
      obtain ⟨a, b, c⟩ := hw.1
      cases hr : p.reader <;> simp [Piece.text, src, hr])
    rcases List.mem_cons.1 hq with rfl | hq
    · apply Classical.byContradiction
      intro hne
      obtain ⟨a, b, c⟩ := hw.1
      simp only [Piece.text, src, ho] at e1 c
      have hlt : q.offset.toNat < orig.length := by omega
      have := congrArg (fun l => l[0]?) e1
      have hpos : 0 < q.length.toNat := by omega
      simp [List.getElem?_take, hpos, List.getElem?_drop, List.getElem?_map, List.getElem?_eq_getElem hlt] at this
      exact hf _ this
    · exact ih hw.2 e2 q hq ho

/-- The source is still needed exactly if a byte of the text was not inserted. -/
theorem traced_used {pt : PieceTable} {own : List Bool} (g : pt.Good) (h : Traced pt own) :
    (∃ p ∈ pt.pieces, p.reader = .orig ∧ p.length ≠ 0) ↔ false ∈ own := by
  obtain ⟨h1, h2, h3⟩ := h
  have hz : ∀ (t : Bytes) (own : List Bool), own.length = t.length → (List.zipWith (fun b k => if k then b else b + 1) t own = t ↔ false ∉ own) := by
    intro t
    induction t with
    | nil => intro own h; cases own <;> simp at h ⊢
    | cons b t ih =>
      intro own h
      cases own with
      | nil => simp at h
      | cons k own =>
        have := ih own (by simpa using h)
        cases k
        · simp
        · simpa using this
  have hz := hz _ own h2
  rw [← h3 (fun b => b + 1)] at hz
  constructor
  · rintro ⟨p, hp, ho, hl⟩
    apply Classical.byContradiction
    intro hn
    exact hl (content_read _ (by intro b; simp) g.pieces (hz.2 hn) p hp ho)
  · intro hm
    apply Classical.byContradiction
    intro hn
    refine absurd hm (hz.1 (content_typed _ fun p hp ho => ?_))
    apply Classical.byContradiction
    intro hl
    exact hn ⟨p, hp, ho, hl⟩

end Txt
