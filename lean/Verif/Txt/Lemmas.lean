import Verif.Txt.Spec

/-! # Helper lemmas for the piece table (not property statements) -/

namespace Txt
open Go

/-- Bytes behind a reader while the source is open. -/
def src (orig : Bytes) : Reader → Bytes
  | .orig => orig
  | .mem b => b

/-- Representation invariant of a piece. -/
def Piece.WF (orig : Bytes) (p : Piece) : Prop :=
  0 ≤ p.length ∧ 0 ≤ p.offset ∧ p.offset + p.length ≤ (src orig p.reader).length

/-- The bytes a piece stands for. -/
def Piece.text (orig : Bytes) (p : Piece) : Bytes :=
  ((src orig p.reader).drop p.offset.toNat).take p.length.toNat

/-- The bytes a list of pieces stands for. -/
def content (orig : Bytes) : List Piece → Bytes
  | [] => []
  | p :: ps => p.text orig ++ content orig ps

/-- All pieces satisfy the invariant. -/
def AllWF (orig : Bytes) (ps : List Piece) : Prop := ∀ p ∈ ps, p.WF orig

theorem AllWF.cons {orig p ps} : AllWF orig (p :: ps) ↔ p.WF orig ∧ AllWF orig ps := by
  simp [AllWF]

theorem AllWF.nil {orig} : AllWF orig [] := by simp [AllWF]

theorem AllWF.append {orig ps qs} : AllWF orig (ps ++ qs) ↔ AllWF orig ps ∧ AllWF orig qs := by
  simp only [AllWF, List.mem_append]
  exact ⟨fun h => ⟨fun p hp => h p (.inl hp), fun p hp => h p (.inr hp)⟩,
    fun h p hp => hp.elim (h.1 p) (h.2 p)⟩

theorem text_length {orig p} (h : Piece.WF orig p) : ((p.text orig).length : Int) = p.length := by
  obtain ⟨h1, h2, h3⟩ := h
  simp only [Piece.text, List.length_take, List.length_drop]
  omega

theorem content_append (orig ps qs) :
    content orig (ps ++ qs) = content orig ps ++ content orig qs := by
  induction ps with
  | nil => rfl
  | cons p ps ih => simp [content, ih]

theorem content_length {orig ps} (h : AllWF orig ps) :
    ((content orig ps).length : Int) = totalLength ps := by
  induction ps with
  | nil => rfl
  | cons p ps ih =>
    rw [AllWF.cons] at h
    have := text_length h.1
    have := ih h.2
    simp only [content, totalLength, List.length_append]
    omega

theorem totalLength_nonneg {orig ps} (h : AllWF orig ps) : 0 ≤ totalLength ps := by
  have := content_length h
  omega

theorem totalLength_append (ps qs) : totalLength (ps ++ qs) = totalLength ps + totalLength qs := by
  induction ps with
  | nil => simp [totalLength]
  | cons p ps ih => simp only [List.cons_append, totalLength, ih]; omega

theorem text_take {orig p} (h : Piece.WF orig p) {k : Int} (h0 : 0 ≤ k) (h1 : k ≤ p.length) :
    Piece.text orig { p with length := k } = (p.text orig).take k.toNat := by
  obtain ⟨h2, h3, h4⟩ := h
  simp only [Piece.text, List.take_take]
  congr 1
  omega

theorem text_drop {orig p} (h : Piece.WF orig p) {k : Int} (h0 : 0 ≤ k) (h1 : k ≤ p.length) :
    Piece.text orig { p with length := p.length - k, offset := p.offset + k } =
      (p.text orig).drop k.toNat := by
  obtain ⟨h2, h3, h4⟩ := h
  simp only [Piece.text, List.drop_take, List.drop_drop]
  congr 1
  · omega
  · congr 1; omega

theorem wf_take {orig p} (h : Piece.WF orig p) {k : Int} (h0 : 0 ≤ k) (h1 : k ≤ p.length) :
    Piece.WF orig { p with length := k } := by
  obtain ⟨h2, h3, h4⟩ := h
  refine ⟨h0, h3, ?_⟩
  show p.offset + k ≤ _
  simp only
  omega

theorem wf_drop {orig p} (h : Piece.WF orig p) {k : Int} (h0 : 0 ≤ k) (h1 : k ≤ p.length) :
    Piece.WF orig { p with length := p.length - k, offset := p.offset + k } := by
  obtain ⟨h2, h3, h4⟩ := h
  refine ⟨?_, ?_, ?_⟩ <;> simp only <;> omega

/-- `readAt` on a well-formed piece of an open source. -/
theorem readAt_wf {orig p} (h : Piece.WF orig p) :
    readAt (some (src orig p.reader)) p.length p.offset = some (p.text orig) := by
  obtain ⟨h1, h2, h3⟩ := h
  simp [readAt, Piece.text, h2, h3]

theorem readPieces_wf (pt : PieceTable) (hc : pt.closed = false) (total : Int) (ps : List Piece) :
    ∀ idx, AllWF pt.orig ps → idx + totalLength ps ≤ total →
      pt.readPieces total idx ps = .ok (content pt.orig ps) := by
  induction ps with
  | nil => intros; rfl
  | cons p ps ih =>
    intro idx h ht
    rw [AllWF.cons] at h
    have hn := totalLength_nonneg h.2
    have htl := text_length h.1
    simp only [totalLength] at ht
    simp only [PieceTable.readPieces, content]
    have hp := h.1.1
    split
    · next h0 =>
      rw [ih _ h.2 (by omega)]
      have : (p.text pt.orig) = [] := List.length_eq_zero_iff.1 (by omega)
      simp [this]
    · rw [if_neg (by omega), if_neg (by omega)]
      have hs : pt.source p.reader = some (src pt.orig p.reader) := by
        cases hr : p.reader <;> simp [PieceTable.source, src, hc]
      rw [hs, readAt_wf h.1, ih _ h.2 (by omega)]
      rfl

/-- Invariant of an open table. -/
structure PieceTable.WF (pt : PieceTable) : Prop where
  isOpen : pt.closed = false
  pieces : AllWF pt.orig pt.pieces

theorem string_wf {pt : PieceTable} (h : pt.WF) : pt.string = .ok (content pt.orig pt.pieces) := by
  have := totalLength_nonneg h.pieces
  simp only [PieceTable.string]
  rw [if_neg (by omega), readPieces_wf pt h.isOpen _ _ _ h.pieces (by omega)]

theorem insertLoop_ok (orig : Bytes) (b text : Bytes) (at_ : Int) (ps : List Piece) :
    ∀ idx, AllWF orig ps → ps ≠ [] → idx ≤ at_ → at_ ≤ idx + totalLength ps →
      ∃ qs, insertLoop (some b) text at_ idx ps = .ok (qs, b ++ text) ∧ AllWF orig qs ∧ qs ≠ [] ∧
        content orig qs = (content orig ps).take (at_ - idx).toNat ++ text ++
          (content orig ps).drop (at_ - idx).toNat := by
  induction ps with
  | nil => intro _ _ h; exact absurd rfl h
  | cons p ps ih =>
    intro idx h _ h1 h2
    rw [AllWF.cons] at h
    have htl := text_length h.1
    have hp := h.1.1
    simp only [totalLength] at h2
    simp only [insertLoop]
    split
    · next hge =>
      have hk0 : 0 ≤ at_ - (idx + p.length - p.length) := by omega
      have hk1 : at_ - (idx + p.length - p.length) ≤ p.length := by omega
      refine ⟨_, rfl, ?_, by simp, ?_⟩
      · rw [AllWF.cons, AllWF.cons, AllWF.cons]
        refine ⟨wf_take h.1 hk0 hk1, ?_, wf_drop h.1 hk0 hk1, h.2⟩
        refine ⟨by simp, by simp, ?_⟩
        simp [src]
      · have e1 := text_take h.1 hk0 hk1
        have e2 := text_drop h.1 hk0 hk1
        simp only [content, e1, e2]
        have e3 : Piece.text orig
            { length := text.length, offset := b.length, reader := .mem (b ++ text) } = text := by
          simp [Piece.text, src]
        rw [e3]
        have hidx : at_ - (idx + p.length - p.length) = at_ - idx := by omega
        rw [hidx]
        have hle : (at_ - idx).toNat ≤ (p.text orig).length := by omega
        rw [List.take_append_of_le_length hle, List.drop_append_of_le_length hle]
        simp [List.append_assoc]
    · next hlt =>
      have hne : ps ≠ [] := by
        rintro rfl
        simp only [totalLength] at h2
        omega
      obtain ⟨qs, e, hw, _, hc⟩ := ih (idx + p.length) h.2 hne (by omega) (by omega)
      refine ⟨p :: qs, ?_, AllWF.cons.2 ⟨h.1, hw⟩, by simp, ?_⟩
      · rw [e]; rfl
      · simp only [content, hc]
        have hle : (at_ - idx).toNat = (p.text orig).length + (at_ - (idx + p.length)).toNat := by
          omega
        rw [hle, List.take_length_add_append, List.drop_length_add_append]
        simp [List.append_assoc]

theorem insertLoop_nilBuf (orig : Bytes) (text : Bytes) (at_ : Int) (ps : List Piece) :
    ∀ idx, AllWF orig ps → ps ≠ [] → at_ ≤ idx + totalLength ps →
      insertLoop none text at_ idx ps = .error .nilDeref := by
  induction ps with
  | nil => intro _ _ h; exact absurd rfl h
  | cons p ps ih =>
    intro idx h _ h2
    rw [AllWF.cons] at h
    simp only [totalLength] at h2
    simp only [insertLoop]
    split
    · rfl
    · have hne : ps ≠ [] := by
        rintro rfl
        simp only [totalLength] at h2
        omega
      rw [ih _ h.2 hne (by omega)]; rfl

theorem insertLoop_panic (orig : Bytes) (buf : Option Bytes) (text : Bytes) (at_ : Int)
    (ps : List Piece) :
    ∀ idx, AllWF orig ps → idx + totalLength ps < at_ →
      insertLoop buf text at_ idx ps = .error .explicit := by
  induction ps with
  | nil => intros; rfl
  | cons p ps ih =>
    intro idx h h2
    rw [AllWF.cons] at h
    have hn := totalLength_nonneg h.2
    simp only [totalLength] at h2
    simp only [insertLoop]
    rw [if_neg (by omega), ih _ h.2 (by omega)]
    rfl

theorem deleteTail_ok (orig : Bytes) (length at_ : Int) (ps : List Piece) :
    ∀ end_ mid, AllWF orig ps → AllWF orig mid → 0 < at_ + length - end_ →
      AllWF orig (deleteTail (at_ + length) length at_ end_ mid ps) ∧
      (at_ + length - end_ ≤ totalLength ps →
        content orig (deleteTail (at_ + length) length at_ end_ mid ps) =
          (content orig ps).drop (at_ + length - end_).toNat) ∧
      (totalLength ps < at_ + length - end_ →
        deleteTail (at_ + length) length at_ end_ mid ps = mid ++ ps) := by
  induction ps with
  | nil =>
    intro end_ mid _ hm h0
    refine ⟨hm, ?_, fun _ => ?_⟩
    · simp only [totalLength]; intro; omega
    · simp [deleteTail]
  | cons p ps ih =>
    intro end_ mid h hm h0
    rw [AllWF.cons] at h
    have hp := h.1.1
    have htl := text_length h.1
    have hn := totalLength_nonneg h.2
    simp only [deleteTail, totalLength]
    split
    · next hge =>
      have hk0 : 0 ≤ at_ + length - end_ := by omega
      have hk1 : at_ + length - end_ ≤ p.length := by omega
      refine ⟨AllWF.cons.2 ⟨wf_drop h.1 hk0 hk1, h.2⟩, fun _ => ?_, fun _ => by omega⟩
      simp only [content, text_drop h.1 hk0 hk1]
      rw [List.drop_append_of_le_length (by omega)]
    · next hlt =>
      have hm' : AllWF orig (mid ++ [p]) := AllWF.append.2 ⟨hm, AllWF.cons.2 ⟨h.1, AllWF.nil⟩⟩
      obtain ⟨i1, i2, i3⟩ := ih (end_ + p.length) (mid ++ [p]) h.2 hm' (by omega)
      refine ⟨i1, fun hle => ?_, fun hlt => ?_⟩
      · rw [i2 (by omega)]
        simp only [content]
        have : (at_ + length - end_).toNat =
          (p.text orig).length + (at_ + length - (end_ + p.length)).toNat := by omega
        rw [this, List.drop_length_add_append]
      · rw [i3 (by omega)]; simp

theorem deleteLoop_ok (orig : Bytes) (length at_ : Int) (hl : 0 ≤ length) (ps : List Piece) :
    ∀ end_, AllWF orig ps → end_ ≤ at_ →
      AllWF orig (deleteLoop (at_ + length) length at_ end_ ps) ∧
      (at_ - end_ + length ≤ totalLength ps →
        content orig (deleteLoop (at_ + length) length at_ end_ ps) =
          (content orig ps).take (at_ - end_).toNat ++
            (content orig ps).drop ((at_ - end_).toNat + length.toNat)) ∧
      (at_ - end_ ≤ totalLength ps → totalLength ps < at_ - end_ + length →
        ∃ k : Nat, (at_ - end_).toNat ≤ k ∧ k ≤ (content orig ps).length ∧
          content orig (deleteLoop (at_ + length) length at_ end_ ps) =
            (content orig ps).take (at_ - end_).toNat ++ (content orig ps).drop k) ∧
      (totalLength ps < at_ - end_ → deleteLoop (at_ + length) length at_ end_ ps = ps) := by
  induction ps with
  | nil =>
    intro end_ h h1
    refine ⟨by simp [deleteLoop, AllWF], by simp [deleteLoop, content], ?_, by simp [deleteLoop]⟩
    intro h2 h3
    simp only [totalLength] at h2
    exact ⟨0, by omega, by simp, by simp [deleteLoop, content]⟩
  | cons p ps ih =>
    intro end_ h h1
    rw [AllWF.cons] at h
    have hp := h.1.1
    have htl := text_length h.1
    have hn := totalLength_nonneg h.2
    have hcl := content_length h.2
    simp only [deleteLoop, totalLength]
    split
    · next hge =>
      have hk0 : 0 ≤ at_ - end_ := by omega
      have hk1 : at_ - end_ ≤ p.length := by omega
      have e1 := text_take h.1 hk0 hk1
      have htake : (content orig (p :: ps)).take (at_ - end_).toNat =
          (p.text orig).take (at_ - end_).toNat := by
        simp only [content]
        rw [List.take_append_of_le_length (by omega)]
      split
      · next hge2 =>
        have hk2 : 0 ≤ at_ - end_ + length := by omega
        have hk3 : at_ - end_ + length ≤ p.length := by omega
        have e2 := text_drop h.1 hk2 hk3
        have w2 := wf_drop h.1 hk2 hk3
        have hlen : end_ + p.length - (at_ + length) = p.length - (at_ - end_ + length) := by omega
        rw [hlen]
        refine ⟨AllWF.cons.2 ⟨wf_take h.1 hk0 hk1, AllWF.cons.2 ⟨w2, h.2⟩⟩, fun _ => ?_,
          fun _ _ => by omega, fun _ => by omega⟩
        rw [htake]
        simp only [content, e1, e2]
        have : (at_ - end_).toNat + length.toNat = (at_ - end_ + length).toNat := by omega
        rw [this, List.drop_append_of_le_length (by omega)]
      · next hlt2 =>
        obtain ⟨i1, i2, i3⟩ := deleteTail_ok orig length at_ ps (end_ + p.length) []
          h.2 AllWF.nil (by omega)
        refine ⟨AllWF.cons.2 ⟨wf_take h.1 hk0 hk1, i1⟩, fun hle => ?_, fun h2 h3 => ?_,
          fun _ => by omega⟩
        · rw [htake]
          simp only [content, e1, i2 (by omega)]
          have : (at_ - end_).toNat + length.toNat =
            (p.text orig).length + (at_ + length - (end_ + p.length)).toNat := by omega
          rw [this, List.drop_length_add_append]
        · refine ⟨(p.text orig).length, by omega, by simp [content], ?_⟩
          rw [htake, i3 (by omega)]
          simp only [content, e1, List.drop_left, List.nil_append]
    · next hlt =>
      obtain ⟨i1, i2, i3, i4⟩ := ih (end_ + p.length) h.2 (by omega)
      have hk : (at_ - end_).toNat = (p.text orig).length + (at_ - (end_ + p.length)).toNat := by
        omega
      have htake : (content orig (p :: ps)).take (at_ - end_).toNat =
          p.text orig ++ (content orig ps).take (at_ - (end_ + p.length)).toNat := by
        simp only [content]
        rw [hk, List.take_length_add_append]
      refine ⟨AllWF.cons.2 ⟨h.1, i1⟩, fun hle => ?_, fun h2 h3 => ?_, fun h2 => ?_⟩
      · rw [htake]
        simp only [content]
        rw [i2 (by omega), hk, Nat.add_assoc, List.drop_length_add_append, List.append_assoc]
      · obtain ⟨k, k1, k2, k3⟩ := i3 (by omega) (by omega)
        refine ⟨(p.text orig).length + k, by omega, ?_, ?_⟩
        · simp only [content, List.length_append]; omega
        · rw [htake]
          simp only [content]
          rw [k3, List.drop_length_add_append, List.append_assoc]
      · rw [i4 (by omega)]

/-! ### Table level -/

/-- Invariant of tables coming from `NewPieceTable`. -/
structure PieceTable.Good (pt : PieceTable) : Prop extends pt.WF where
  hasBuf : pt.append ≠ none
  nonempty : pt.pieces ≠ []

theorem good_new (s : Bytes) (c : Bool) (n : Nat) (h : n ≤ s.length) :
    (newPieceTable s c n).Good := by
  refine ⟨⟨rfl, ?_⟩, by simp [newPieceTable], by simp [newPieceTable]⟩
  simp [newPieceTable, AllWF, Piece.WF, src, h]

theorem deleteLoop_ne (stop length at_ end_ : Int) (ps : List Piece) (h : ps ≠ []) :
    deleteLoop stop length at_ end_ ps ≠ [] := by
  cases ps with
  | nil => exact absurd rfl h
  | cons p ps =>
    simp only [deleteLoop]
    split
    · split <;> simp
    · simp

theorem good_insert {pt : PieceTable} (h : pt.Good) (x : Bytes) (a : Int) (h0 : 0 ≤ a)
    (h1 : a ≤ (content pt.orig pt.pieces).length) :
    ∃ pt', pt.insert x a = .ok pt' ∧ pt'.Good ∧ pt'.orig = pt.orig ∧ pt'.closable = pt.closable ∧
      content pt'.orig pt'.pieces = (content pt.orig pt.pieces).take a.toNat ++ x ++
        (content pt.orig pt.pieces).drop a.toNat := by
  obtain ⟨⟨ho, hw⟩, hb, hne⟩ := h
  obtain ⟨b, hb⟩ := Option.ne_none_iff_exists'.1 hb
  rw [content_length hw] at h1
  obtain ⟨qs, e, w, ne, c⟩ := insertLoop_ok pt.orig b x a pt.pieces 0 hw hne h0 (by omega)
  refine ⟨{ pt with pieces := qs, append := some (b ++ x) }, ?_, ⟨⟨ho, w⟩, by simp, ne⟩, rfl, rfl, ?_⟩
  · unfold PieceTable.insert
    split
    · next heq => exact absurd heq hne
    · rw [hb, e]; rfl
  · simpa using c

theorem insert_panic {pt : PieceTable} (h : pt.Good) (x : Bytes) (a : Int)
    (h1 : (content pt.orig pt.pieces).length < a) : pt.insert x a = .error .explicit := by
  obtain ⟨⟨ho, hw⟩, hb, hne⟩ := h
  rw [content_length hw] at h1
  unfold PieceTable.insert
  split
  · next heq => exact absurd heq hne
  · rw [insertLoop_panic pt.orig _ _ _ _ 0 hw (by omega)]; rfl

theorem wrap64_id {i : Int} (h1 : -2 ^ 63 ≤ i) (h2 : i < 2 ^ 63) : wrap64 i = i := by
  simp only [wrap64]; omega

theorem stopAt_in {total at_ length : Int} (h : at_ + length ≤ total) : stopAt total at_ length = at_ + length := by
  simp [stopAt, h]

theorem stopAt_fits {total at_ length : Int} (h1 : 0 ≤ at_ + length) (h2 : at_ + length < 2 ^ 63) :
    stopAt total at_ length = at_ + length := by
  simp only [stopAt, wrap64_id (i := at_ + length) (by omega) h2, ite_self]

/-- The end of the range is a 64-bit integer, or lies within the text. -/
def Fits (pt : PieceTable) (n a : Int) : Prop := a + n < 2 ^ 63 ∨ a + n ≤ totalLength pt.pieces

theorem delete_pieces {pt : PieceTable} {n a : Int} (h0 : 0 ≤ n) (h1 : 0 ≤ a) (hf : Fits pt n a) :
    (pt.delete n a).pieces = deleteLoop (a + n) n a 0 pt.pieces := by
  rcases hf with hf | hf
  · simp [PieceTable.delete, stopAt_fits (by omega) hf]
  · simp [PieceTable.delete, stopAt_in hf]

theorem good_delete {pt : PieceTable} (h : pt.Good) (n a : Int) (h0 : 0 ≤ n) (h1 : 0 ≤ a) (hf : Fits pt n a) :
    (pt.delete n a).Good ∧ (pt.delete n a).orig = pt.orig := by
  obtain ⟨⟨ho, hw⟩, hb, hne⟩ := h
  have e := delete_pieces h0 h1 hf
  refine ⟨⟨⟨ho, ?_⟩, hb, ?_⟩, rfl⟩
  · rw [e]; exact (deleteLoop_ok pt.orig n a h0 pt.pieces 0 hw h1).1
  · rw [e]; exact deleteLoop_ne _ _ _ _ _ hne

theorem Reachable.good {pt : PieceTable} (h : Reachable pt) : pt.Good := by
  induction h with
  | new s c n h => exact good_new s c n h
  | @insert pt pt' x a ha _ e ih =>
    by_cases hl : a ≤ (content pt.orig pt.pieces).length
    · obtain ⟨q, e', g, _⟩ := good_insert ih x a ha hl
      rw [e'] at e
      cases e; exact g
    · rw [insert_panic ih x a (by omega)] at e
      cases e
  | @delete pt n a hn ha _ hf ih =>
    refine (good_delete ih n a hn ha ?_).1
    rcases hf with hf | ⟨t, ht, hf⟩
    · exact .inl hf
    · rw [string_wf ih.toWF] at ht
      cases ht
      have := content_length ih.pieces
      exact .inr (by omega)

/-- For tables whose text is known the condition on the end of the range can be said with the text. -/
theorem Reachable.fits {pt : PieceTable} (h : Reachable pt) {t : Bytes} (ht : pt.string = .ok t) {n a : Int}
    (hf : a + n ≤ t.length) : Fits pt n a := by
  rw [string_wf h.good.toWF] at ht
  cases ht
  have := content_length h.good.pieces
  exact .inr (by omega)

theorem content_new (s : Bytes) (c : Bool) (n : Nat) :
    content (newPieceTable s c n).orig (newPieceTable s c n).pieces = s.take n := by
  simp [newPieceTable, content, Piece.text, src]

end Txt
