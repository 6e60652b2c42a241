import Verif.Txt.Lemmas
import Verif.Go.StrconvProps

/-!
# Properties C01–C09 of the piece table
-/

namespace Txt
open Go

/-- A concrete reachable table with several pieces, used to exhibit that hypotheses are met:
"hello" with "XY" inserted at 2 and one byte deleted at 1: text "hXYllo". -/
def demo : PieceTable :=
  { orig := b!"hello", closable := true, closed := false, append := some b!"XY",
    pieces := [⟨1, 0, .orig⟩, ⟨0, 2, .orig⟩, ⟨2, 0, .mem b!"XY"⟩, ⟨3, 2, .orig⟩] }

/-- The table before the deletion. -/
def demo0 : PieceTable :=
  { orig := b!"hello", closable := true, closed := false, append := some b!"XY",
    pieces := [⟨2, 0, .orig⟩, ⟨2, 0, .mem b!"XY"⟩, ⟨3, 2, .orig⟩] }

theorem demo_reachable : Reachable demo :=
  .delete (pt := demo0) 1 1 (by decide) (by decide)
    (.insert b!"XY" 2 (by decide) (.new b!"hello" true 5 (by decide)) (by decide)) (.inl (by decide))

theorem demo_string : demo.string = .ok b!"hXYllo" := by decide

/-- Every reachable table can be read. -/
theorem string_ok {pt : PieceTable} (h : Reachable pt) : ∃ t, pt.string = .ok t :=
  ⟨_, string_wf h.good.toWF⟩

/-- **C01** Insert is a splice: in range it does not panic and the text afterwards is
`t[:at] + x + t[at:]`; the table stays reachable. -/
theorem C01_insert_splices {pt : PieceTable} (h : Reachable pt) {t : Bytes}
    (ht : pt.string = .ok t) (x : Bytes) (at_ : Nat) (hle : at_ ≤ t.length) :
    ∃ pt', pt.insert x at_ = .ok pt' ∧ Reachable pt' ∧
      pt'.string = .ok (t.take at_ ++ x ++ t.drop at_) := by
  have g := h.good
  rw [string_wf g.toWF] at ht
  cases ht
  obtain ⟨pt', e, g', _, _, c⟩ := good_insert g x at_ (by omega) (by omega)
  refine ⟨pt', e, ?_, ?_⟩
  · exact .insert x at_ (by omega) h e
  · rw [string_wf g'.toWF, c]; rfl

example : ∃ pt', demo.insert b!"--" 3 = .ok pt' ∧ Reachable pt' ∧ pt'.string = .ok b!"hXY--llo" :=
  C01_insert_splices demo_reachable demo_string b!"--" 3 (by decide)

/-- **C02** Delete is a cut. -/
theorem C02_delete_cuts {pt : PieceTable} (h : Reachable pt) {t : Bytes}
    (ht : pt.string = .ok t) (length at_ : Nat) (hle : at_ + length ≤ t.length) :
    (pt.delete length at_).string = .ok (t.take at_ ++ t.drop (at_ + length)) := by
  have g := h.good
  rw [string_wf g.toWF] at ht
  cases ht
  have hl := content_length g.pieces
  have hf : Fits pt length at_ := .inr (by omega)
  have g' := (good_delete g length at_ (by omega) (by omega) hf)
  rw [string_wf g'.1.toWF, g'.2]
  have := (deleteLoop_ok pt.orig length at_ (by omega) pt.pieces 0 g.pieces (by omega)).2.1 (by omega)
  rw [delete_pieces (by omega) (by omega) hf, this]
  simp

example : (demo.delete 4 1).string = .ok b!"ho" :=
  C02_delete_cuts demo_reachable demo_string 4 1 (by decide)

/-- **C03** Any history of in-range operations on a fresh table over any source agrees with the same
history on plain text, and never panics. -/
theorem C03_history_agrees (s : Bytes) (closable : Bool) (n : Nat) (hn : n ≤ s.length)
    (ops : List Op) (t : Bytes) (h : textRun (s.take n) ops = some t) :
    ∃ pt, (newPieceTable s closable n).run ops = .ok pt ∧ pt.string = .ok t := by
  have key : ∀ (ops : List Op) (q : PieceTable), q.Good →
      textRun (content q.orig q.pieces) ops = some t →
      ∃ pt, q.run ops = .ok pt ∧ pt.string = .ok t := by
    intro ops
    induction ops with
    | nil =>
      intro q g ht
      cases ht
      exact ⟨q, rfl, string_wf g.toWF⟩
    | cons o os ih =>
      intro q g ht
      cases o with
      | insert x a =>
        simp only [textRun, Op.onText] at ht
        split at ht
        · next hr =>
          obtain ⟨q', e, g', _, _, c⟩ := good_insert g x a hr.1 hr.2
          simp only [Option.bind_some] at ht
          rw [← c] at ht
          obtain ⟨pt, e', hs⟩ := ih q' g' ht
          refine ⟨pt, ?_, hs⟩
          simp only [PieceTable.run, PieceTable.apply, e]
          exact e'
        · cases ht
      | delete k a =>
        simp only [textRun, Op.onText] at ht
        split at ht
        · next hr =>
          have hl := content_length g.pieces
          have hf : Fits q k a := .inr (by omega)
          obtain ⟨g', ho⟩ := good_delete g k a hr.1 hr.2.1 hf
          have c := (deleteLoop_ok q.orig k a hr.1 q.pieces 0 g.pieces hr.2.1).2.1 (by omega)
          simp only [Option.bind_some] at ht
          simp only [Int.sub_zero] at c
          rw [← c, ← delete_pieces hr.1 hr.2.1 hf, ← ho] at ht
          exact ih (q.delete k a) g' ht
        · cases ht
  refine key ops _ (good_new s closable n hn) ?_
  rw [content_new]
  exact h

example : ∃ pt, (newPieceTable b!"hello" true 5).run
      [.insert b!"XY" 2, .delete 1 1, .delete 3 2, .insert b!"!" 3] = .ok pt ∧
    pt.string = .ok b!"hXo!" :=
  C03_history_agrees b!"hello" true 5 (by decide) _ _ (by decide)

theorem atoi?_range {s : Bytes} {n : Int} (h : atoi? s = some n) : -2 ^ 63 ≤ n ∧ n < 2 ^ 63 := by
  have : atoi s = (n, none) := by
    simp only [atoi?] at h
    split at h
    · next heq => cases h; exact heq
    · cases h
  exact ((C72_atoi_iff s n).1 this).2

/-- The number of bytes the commands can add. -/
def typed : List (Option FuzzCmd) → Nat
  | [] => 0
  | none :: cs => typed cs
  | some c :: cs => c.txt.length + typed cs

theorem fuzzLoop_ok (size : Nat) (hsize : size < 2 ^ 63) : ∀ (cmds : List (Option FuzzCmd)) (pt : PieceTable), pt.Good →
    (content pt.orig pt.pieces).length + typed cmds ≤ size →
    fuzzLoop pt (content pt.orig pt.pieces) cmds = .ok () ∨
      (fuzzLoop pt (content pt.orig pt.pieces) cmds = .error .index ∧
        ∃ c n, some c ∈ cmds ∧ c.typ < 0 ∧ atoi? c.txt = some n ∧ 2 ^ 63 ≤ size + n) := by
  intro cmds
  induction cmds with
  | nil => intros; exact .inl rfl
  | cons o cs ih =>
    intro pt g hb
    cases o with
    | none => exact .inl rfl
    | some c =>
    simp only [typed] at hb
    have lift : ∀ {q : PieceTable}, (fuzzLoop q (content q.orig q.pieces) cs = .ok () ∨
        (fuzzLoop q (content q.orig q.pieces) cs = .error .index ∧
          ∃ c n, some c ∈ cs ∧ c.typ < 0 ∧ atoi? c.txt = some n ∧ 2 ^ 63 ≤ size + n)) →
        (fuzzLoop q (content q.orig q.pieces) cs = .ok () ∨
        (fuzzLoop q (content q.orig q.pieces) cs = .error .index ∧
          ∃ d n, some d ∈ some c :: cs ∧ d.typ < 0 ∧ atoi? d.txt = some n ∧ 2 ^ 63 ≤ size + n)) := by
      rintro q (h | ⟨h, d, n, hm, h1, h2, h3⟩)
      · exact .inl h
      · exact .inr ⟨h, d, n, List.mem_cons_of_mem _ hm, h1, h2, h3⟩
    simp only [fuzzLoop]
    split
    · exact .inl rfl
    next hc =>
    generalize ha : (if c.at_ > (content pt.orig pt.pieces).length then
      ((content pt.orig pt.pieces).length : Int) else c.at_) = a
    have h0 : 0 ≤ a := by rw [← ha]; split <;> omega
    have h1 : a ≤ (content pt.orig pt.pieces).length := by rw [← ha]; split <;> omega
    split
    · obtain ⟨pt', e, g', _, _, ce⟩ := good_insert g c.txt a h0 h1
      have hl := congrArg List.length ce
      simp only [naiveInsert, h0, h1, and_self, if_true, e]
      simp only [bind, Except.bind, string_wf g'.toWF, ce]
      rw [← ce]
      simp at hl
      simpa using lift (ih pt' g' (by omega))
    · cases hnum : atoi? c.txt with
      | none => exact .inl rfl
      | some length =>
        have hr := atoi?_range hnum
        simp only
        split
        · exact .inl rfl
        · next hl =>
          have hcl := content_length g.pieces
          by_cases hin : a + length ≤ (content pt.orig pt.pieces).length
          · have hf : Fits pt length a := .inr (by omega)
            obtain ⟨g', ho⟩ := good_delete g length a (by omega) h0 hf
            have ce := (deleteLoop_ok pt.orig length a (by omega) pt.pieces 0 g.pieces h0).2.1
              (by omega)
            have h2 : 0 ≤ a + length := by omega
            simp only [naiveDelete, stopAt_in hin, h0, h1, h2, hin, and_self, if_true]
            simp only [bind, Except.bind, string_wf g'.toWF]
            have : content (pt.delete length a).orig (pt.delete length a).pieces =
                (content pt.orig pt.pieces).take a.toNat ++
                  (content pt.orig pt.pieces).drop (a + length).toNat := by
              rw [delete_pieces (by omega) h0 hf, ho, ce, Int.sub_zero]
              congr 2; omega
            have hl2 := congrArg List.length this
            rw [← this]
            simp at hl2
            simpa using lift (ih _ g' (by omega))
          · right
            have hover : 2 ^ 63 ≤ a + length := by
              apply Classical.byContradiction
              intro hlt
              apply hl
              rw [stopAt_fits (by omega) (by omega)]
              omega
            have hneg : stopAt (content pt.orig pt.pieces).length a length < 0 := by
              simp only [stopAt, if_neg hin, wrap64]
              omega
            refine ⟨?_, c, length, by simp, by omega, hnum, by omega⟩
            simp only [naiveDelete]
            rw [if_neg (by omega)]
            rfl

theorem scanTokens_size (ls : List Bytes) : ((scanTokens ls).1.map List.length).sum ≤ (ls.map List.length).sum := by
  induction ls with
  | nil => simp [scanTokens]
  | cons l ls ih =>
    have : (dropCR l).length ≤ l.length := by simp only [dropCR]; split <;> simp
    simp only [scanTokens]
    split
    · simp; omega
    · simp

theorem rawLines_size (s : Bytes) : ((rawLines s).map List.length).sum ≤ s.length := by
  induction s with
  | nil => simp [rawLines]
  | cons c cs ih =>
    simp only [rawLines]
    split
    · simp; omega
    · split
      · simp
      · next heq => rw [heq] at ih; simp at ih ⊢; omega

theorem typed_le (scan : Bytes → Option FuzzCmd) (hs : ∀ l c, scan l = some c → c.txt.length ≤ l.length) (ls : List Bytes) :
    typed (ls.map scan) ≤ (ls.map List.length).sum := by
  induction ls with
  | nil => simp [typed]
  | cons l ls ih =>
    cases h : scan l with
    | none => simp [typed, h]; omega
    | some c => have := hs l c h; simp [typed, h]; omega

/-- **C03** (the fuzz target) Whatever the input, and however `Sscanf` splits the lines, `Fuzz` never finds
the piece table and the naive table in disagreement (`panic("problem")`). It returns, or it crashes in the
naive table; the latter needs a delete command whose length overflows the 64-bit sum `at+length`. -/
theorem C03_fuzz_never_disagrees (scan : Bytes → Option FuzzCmd) (hs : ∀ l c, scan l = some c → c.txt.length ≤ l.length)
    (data : Bytes) (hd : data.length < 2 ^ 63) :
    fuzz scan data = .ok () ∨
      (fuzz scan data = .error .index ∧ ∃ l c n, l ∈ (scanLines data).1 ∧ scan l = some c ∧ c.typ < 0 ∧
        atoi? c.txt = some n ∧ 2 ^ 63 ≤ data.length + n) := by
  simp only [fuzz]
  have h1 := scanTokens_size (rawLines data)
  have h2 := rawLines_size data
  cases h : (scanLines data).1 with
  | nil => exact .inl rfl
  | cons orig cmds =>
    simp only [scanLines] at h
    rw [h] at h1
    have h3 := typed_le scan hs cmds
    simp at h1
    have := fuzzLoop_ok data.length hd (cmds.map scan) (newPieceTable orig false orig.length)
      (good_new _ _ _ (Nat.le_refl _)) (by rw [content_new, List.take_length]; omega)
    rw [content_new, List.take_length] at this
    rcases this with e | ⟨e, c, n, hm, g1, g2, g3⟩
    · exact .inl e
    · obtain ⟨l, hl, hc⟩ := List.mem_map.1 hm
      exact .inr ⟨e, l, c, n, by simp [hl], hc, g1, g2, g3⟩

/-- `Sscanf` for the examples: one character for each of the first two numbers. -/
def demoScan : Bytes → Option FuzzCmd
  | 45 :: d :: 32 :: e :: 32 :: t => some ⟨-((d.toNat : Int) - 48), e.toNat - 48, t⟩
  | d :: 32 :: e :: 32 :: t => some ⟨d.toNat - 48, e.toNat - 48, t⟩
  | _ => none

theorem demoScan_size (l : Bytes) (c : FuzzCmd) (h : demoScan l = some c) : c.txt.length ≤ l.length := by
  simp only [demoScan] at h
  split at h
  · cases h; simp; omega
  · cases h; simp; omega
  · cases h

example : fuzz demoScan b!"hello\n1 2 XY\n-1 1 3\n1 9 end\n" = .ok () := by decide +kernel

/-- **C03** The crash does happen: "ab", then the command to delete 9223372036854775807 bytes at 1. -/
theorem C03_fuzz_overflow : fuzz demoScan b!"ab\n-1 1 9223372036854775807\n" = .error .index := by decide +kernel

/-- **C04** On a table from `NewPieceTable`, an insert at a non-negative position panics exactly when
the position is past the end. -/
theorem C04_insert_panics_iff {pt : PieceTable} (h : Reachable pt) {t : Bytes}
    (ht : pt.string = .ok t) (x : Bytes) (at_ : Nat) :
    (∃ e, pt.insert x at_ = .error e) ↔ t.length < at_ := by
  constructor
  · rintro ⟨e, he⟩
    by_cases hle : at_ ≤ t.length
    · obtain ⟨_, e', _⟩ := C01_insert_splices h ht x at_ hle
      rw [e'] at he; cases he
    · omega
  · intro hlt
    have g := h.good
    rw [string_wf g.toWF] at ht
    cases ht
    exact ⟨_, insert_panic g x at_ (by omega)⟩

example : ∃ e, demo.insert b!"z" 7 = .error e :=
  (C04_insert_panics_iff demo_reachable demo_string b!"z" 7).2 (by decide)

/-- **C05**, refutation: deleting past the end does not truncate. After inserting "XY" in the middle
of "hello", deleting 100 bytes from offset 1 leaves "hXYllo", not "h". -/
theorem C05_delete_past_end_fails :
    ¬ (∀ (pt : PieceTable) (t : Bytes) (length at_ : Nat), Reachable pt → pt.string = .ok t →
        at_ ≤ t.length → t.length < at_ + length →
        (pt.delete length at_).string = .ok (t.take at_)) := by
  intro h
  have := h demo b!"hXYllo" 100 1 demo_reachable demo_string (by decide) (by decide)
  revert this
  decide

/-- **C05**, what does hold: a delete past the end keeps everything before `at`, and of the rest it
keeps some suffix; on a table that has not been edited the suffix is empty, i.e. the
text is truncated at `at`. Missing: truncation for edited tables, which is false. -/
theorem C05_delete_past_end_partial {pt : PieceTable} (h : Reachable pt) {t : Bytes}
    (ht : pt.string = .ok t) (length at_ : Nat) (h1 : at_ ≤ t.length)
    (h2 : t.length < at_ + length) (h3 : at_ + length < 2 ^ 63) :
    (∃ k, at_ ≤ k ∧ k ≤ t.length ∧
      (pt.delete length at_).string = .ok (t.take at_ ++ t.drop k)) ∧
    (∀ s c (n : Nat), n ≤ s.length → pt = newPieceTable s c n →
      (pt.delete length at_).string = .ok (t.take at_)) := by
  have g := h.good
  rw [string_wf g.toWF] at ht
  cases ht
  have hf : Fits pt length at_ := .inl (by omega)
  have g' := (good_delete g length at_ (by omega) (by omega) hf)
  rw [string_wf g'.1.toWF, g'.2, delete_pieces (by omega) (by omega) hf]
  have hl := content_length g.pieces
  obtain ⟨k, k1, k2, k3⟩ :=
    (deleteLoop_ok pt.orig length at_ (by omega) pt.pieces 0 g.pieces (by omega)).2.2.1
      (by omega) (by omega)
  refine ⟨⟨k, by omega, k2, ?_⟩, ?_⟩
  · rw [k3]; simp
  · rintro s c n hn rfl
    rw [content_new] at h1 h2 ⊢
    simp only [List.length_take] at h1 h2
    simp only [newPieceTable, deleteLoop]
    rw [if_pos (by omega), if_neg (by omega)]
    simp only [deleteTail, content, Piece.text, src, List.take_take]
    simp only [List.append_nil, Int.toNat_zero, List.drop_zero]
    have : (at_ - 0 : Int).toNat = min at_ n := by omega
    rw [this]

example : ((newPieceTable b!"hello" true 5).delete 100 1).string = .ok b!"h" :=
  (C05_delete_past_end_partial (pt := newPieceTable b!"hello" true 5) (t := b!"hello")
    (.new b!"hello" true 5 (by decide)) (by decide) 100 1 (by decide)
    (by decide) (by decide)).2 b!"hello" true 5 (by decide) rfl

theorem deleteTail_past (length at_ : Int) (hl : 0 ≤ length) : ∀ (ps : List Piece) (orig : Bytes) (end_ : Int) (mid : List Piece),
    AllWF orig ps → end_ + totalLength ps < at_ + length → deleteTail (at_ + length) length at_ end_ mid ps = mid ++ ps := by
  intro ps
  induction ps with
  | nil => intro _ _ mid _ _; simp [deleteTail]
  | cons p ps ih =>
    intro orig end_ mid h h1
    rw [AllWF.cons] at h
    have hn := totalLength_nonneg h.2
    simp only [totalLength] at h1
    simp only [deleteTail]
    rw [if_neg (by omega), ih orig _ _ h.2 (by omega)]
    simp

theorem deleteLoop_past (length at_ : Int) (hl : 0 ≤ length) : ∀ (ps : List Piece) (orig : Bytes) (end_ : Int),
    AllWF orig ps → ps ≠ [] → end_ ≤ at_ → at_ - end_ ≤ totalLength ps → totalLength ps < at_ - end_ + length →
    ∃ xs p ys, ps = xs ++ p :: ys ∧ (xs = [] ∨ totalLength xs < at_ - end_) ∧ at_ - end_ ≤ totalLength xs + p.length ∧
      deleteLoop (at_ + length) length at_ end_ ps = xs ++ { p with length := at_ - end_ - totalLength xs } :: ys := by
  intro ps
  induction ps with
  | nil => intro _ _ _ h; exact absurd rfl h
  | cons p ps ih =>
    intro orig end_ h _ h1 h2 h3
    rw [AllWF.cons] at h
    have hn := totalLength_nonneg h.2
    have hp := h.1.1
    simp only [totalLength] at h2 h3
    simp only [deleteLoop]
    by_cases hc : end_ + p.length ≥ at_
    · rw [if_pos hc, if_neg (by omega), deleteTail_past length at_ hl ps orig _ _ h.2 (by omega)]
      exact ⟨[], p, ps, rfl, .inl rfl, by simp [totalLength]; omega, by simp [totalLength]⟩
    · rw [if_neg hc]
      have hne : ps ≠ [] := by rintro rfl; simp [totalLength] at h2; omega
      obtain ⟨xs, q, ys, e1, e2, e3, e4⟩ := ih orig (end_ + p.length) h.2 hne (by omega) (by omega) (by omega)
      refine ⟨p :: xs, q, ys, by rw [e1]; rfl, .inr ?_, by simp only [totalLength]; omega, ?_⟩
      · simp only [totalLength]
        rcases e2 with rfl | e2
        · simp only [totalLength]; omega
        · omega
      · rw [e4]
        simp only [totalLength, List.cons_append]
        congr 3
        congr 1
        omega

/-- **C05**, exactly what happens: a delete past the end removes only the rest of the piece in which it
starts, from `at` to the end of that piece; every later piece stays. -/
theorem C05_delete_past_end_exact_partial {pt : PieceTable} (h : Reachable pt) {t : Bytes} (ht : pt.string = .ok t)
    (length at_ : Nat) (h1 : at_ ≤ t.length) (h2 : t.length < at_ + length) (h3 : at_ + length < 2 ^ 63) :
    ∃ xs p ys, pt.pieces = xs ++ p :: ys ∧ ((content pt.orig xs).length < at_ ∨ xs = []) ∧
      at_ ≤ (content pt.orig (xs ++ [p])).length ∧
      (pt.delete length at_).string = .ok (t.take at_ ++ content pt.orig ys) := by
  have g := h.good
  rw [string_wf g.toWF] at ht
  cases ht
  have hl := content_length g.pieces
  obtain ⟨xs, p, ys, e1, e2, e3, e4⟩ := deleteLoop_past length at_ (by omega) pt.pieces pt.orig 0 g.pieces g.nonempty (by omega) (by omega) (by omega)
  have gp := g.pieces
  rw [e1] at gp
  have gx : AllWF pt.orig xs := fun q hq => gp q (by simp [hq])
  have gq : p.WF pt.orig := gp p (by simp)
  have hlx := content_length gx
  have hlp := text_length gq
  have happ : ∀ as bs : List Piece, content pt.orig (as ++ bs) = content pt.orig as ++ content pt.orig bs := by
    intro as bs
    induction as with
    | nil => rfl
    | cons a as ih => simp [content, ih]
  have hp1 : content pt.orig [p] = p.text pt.orig := by simp [content]
  refine ⟨xs, p, ys, e1, ?_, ?_, ?_⟩
  · rcases e2 with e2 | e2
    · exact .inr e2
    · exact .inl (by omega)
  · rw [happ, List.length_append, hp1]; omega
  · have hf : Fits pt length at_ := .inl (by omega)
    have g' := (good_delete g length at_ (by omega) (by omega) hf)
    rw [string_wf g'.1.toWF, delete_pieces (by omega) (by omega) hf, g'.2]
    rw [e4, e1, happ, happ]
    simp only [content]
    have hx0 : totalLength xs ≤ at_ := by
      rcases e2 with rfl | e2
      · simp [totalLength]
      · omega
    have e5 := text_take gq (k := (at_ : Int) - 0 - totalLength xs) (by omega) (by omega)
    have : ((at_ : Int) - 0 - totalLength xs).toNat = at_ - (content pt.orig xs).length := by omega
    rw [e5, this, List.take_append, List.take_of_length_le (l := content pt.orig xs) (by omega),
      List.take_append_of_le_length (by omega), List.append_assoc]

example : ∃ xs p ys, demo.pieces = xs ++ p :: ys ∧ ((content demo.orig xs).length < 2 ∨ xs = []) ∧
      2 ≤ (content demo.orig (xs ++ [p])).length ∧
      (demo.delete 100 2).string = .ok (b!"hXYllo".take 2 ++ content demo.orig ys) :=
  C05_delete_past_end_exact_partial demo_reachable demo_string 100 2 (by decide) (by decide) (by decide)

/-- **C06** The zero-value table: reads as empty, the first insert works and ignores the
position, every later insert within the text (0 ≤ b ≤ len) panics. -/
theorem C06_zero_value (x y : Bytes) (a b : Int) :
    zero.string = .ok [] ∧
    ∃ pt, zero.insert x a = .ok pt ∧ pt.string = .ok x ∧
      (b ≤ x.length → pt.insert y b = .error .nilDeref) ∧
      (x.length < b → pt.insert y b = .error .explicit) := by
  refine ⟨by decide, _, rfl, ?_, fun h => ?_, fun h => ?_⟩
  · rw [string_wf ⟨rfl, ?_⟩]
    · simp [content, Piece.text, src, zero]
    · simp [AllWF, Piece.WF, src, zero]
  · have := insertLoop_nilBuf [] y b [⟨x.length, 0, .mem x⟩] 0
      (by simp [AllWF, Piece.WF, src]) (by simp) (by simp [totalLength]; omega)
    simp only [PieceTable.insert, zero, this]
    rfl
  · have := insertLoop_panic [] none y b [⟨x.length, 0, .mem x⟩] 0
      (by simp [AllWF, Piece.WF, src]) (by simp [totalLength]; omega)
    simp only [PieceTable.insert, zero, this]
    rfl

/-- A piece of negative length makes the text unreadable. -/
theorem string_negative {pt : PieceTable} {q : Piece} (hq : q ∈ pt.pieces) (hl : q.length < 0) : ∃ e, pt.string = .error e := by
  have key : ∀ (ps : List Piece) (total idx : Int), q ∈ ps → ∃ e, pt.readPieces total idx ps = .error e := by
    intro ps
    induction ps with
    | nil => intro _ _ h; cases h
    | cons p ps ih =>
      intro total idx hm
      simp only [PieceTable.readPieces]
      have tail : p.length ≥ 0 → q ∈ ps := by
        intro hp
        rcases List.mem_cons.1 hm with rfl | hm
        · omega
        · exact hm
      split
      · exact ih _ _ (tail (by omega))
      · split
        · exact ⟨_, rfl⟩
        · split
          · exact ⟨_, rfl⟩
          · split
            · exact ⟨_, rfl⟩
            · obtain ⟨e, he⟩ := ih total (idx + p.length) (tail (by omega))
              exact ⟨e, by rw [he]; rfl⟩
  simp only [PieceTable.string]
  split
  · exact ⟨_, rfl⟩
  · exact key _ _ _ hq

/-- **C05**, if the 64-bit sum `at+length` overflows: the delete corrupts the table, its text can no
longer be read. In particular `Delete(math.MaxInt64, at)` with `at > 0` does not truncate. -/
theorem C05_overflow {pt : PieceTable} (h : Reachable pt) {t : Bytes} (ht : pt.string = .ok t) (length at_ : Nat)
    (hsize : t.length < 2 ^ 63) (h1 : at_ ≤ t.length) (h2 : length < 2 ^ 63) (h3 : 2 ^ 63 ≤ at_ + length) :
    ∃ e, (pt.delete length at_).string = .error e := by
  have g := h.good
  rw [string_wf g.toWF] at ht
  cases ht
  have hl := content_length g.pieces
  have hstop : stopAt (totalLength pt.pieces) at_ length < 0 := by
    simp only [stopAt]
    rw [if_neg (by omega)]
    simp only [wrap64]
    omega
  have key : ∀ (ps : List Piece) (end_ : Int), AllWF pt.orig ps → ps ≠ [] → 0 ≤ end_ → end_ + totalLength ps < 2 ^ 63 →
      at_ ≤ end_ + totalLength ps →
      ∃ q ∈ deleteLoop (stopAt (totalLength pt.pieces) at_ length) length at_ end_ ps, q.length < 0 := by
    intro ps
    induction ps with
    | nil => intro _ _ h; exact absurd rfl h
    | cons p ps ih =>
      intro end_ hw _ h0 hb ha
      rw [AllWF.cons] at hw
      have hp := hw.1.1
      have hn := totalLength_nonneg hw.2
      simp only [totalLength] at hb ha
      simp only [deleteLoop]
      by_cases hc : end_ + p.length ≥ at_
      · rw [if_pos hc, if_pos (by omega)]
        exact ⟨_, List.mem_cons_of_mem _ (List.mem_cons_self ..), by simp only; omega⟩
      · rw [if_neg hc]
        have hne : ps ≠ [] := by rintro rfl; simp [totalLength] at ha; omega
        obtain ⟨q, hq, hql⟩ := ih (end_ + p.length) hw.2 hne (by omega) (by omega) (by omega)
        exact ⟨q, List.mem_cons_of_mem _ hq, hql⟩
  obtain ⟨q, hq, hql⟩ := key pt.pieces 0 g.pieces g.nonempty (by omega) (by omega) (by omega)
  exact string_negative (pt := pt.delete length at_) (q := q) hq hql

example : ∃ e, (demo.delete ((2 ^ 63 - 1 : Nat) : Int) (1 : Nat)).string = .error e :=
  C05_overflow demo_reachable demo_string (2 ^ 63 - 1) 1 (by decide) (by decide) (by decide) (by decide)

theorem insertLoop_none (x : Bytes) (a : Int) : ∀ (ps : List Piece) (i : Int), ∃ e, insertLoop none x a i ps = .error e := by
  intro ps
  induction ps with
  | nil => intro i; exact ⟨_, rfl⟩
  | cons p ps ih =>
    intro i
    simp only [insertLoop]
    split
    · exact ⟨_, rfl⟩
    · obtain ⟨e, he⟩ := ih (i + p.length)
      exact ⟨e, by rw [he]; rfl⟩

/-- **C06** and this persists: on a zero-value table, once an insert happened, after any history of
deletes every insert still panics. -/
theorem C06_zero_value_never_recovers (x y : Bytes) (a b : Int) (dels : List (Int × Int)) :
    ∃ pt, zero.insert x a = .ok pt ∧
      ∃ e, (dels.foldl (fun q d => q.delete d.1 d.2) pt).insert y b = .error e := by
  refine ⟨_, rfl, ?_⟩
  generalize hq : ({ zero with pieces := [{ length := x.length, offset := 0, reader := .mem x }] } :
    PieceTable) = q
  have inv : q.append = none ∧ q.pieces ≠ [] := by
    subst hq; simp [zero]
  clear hq
  induction dels generalizing q with
  | nil =>
    obtain ⟨h1, h2⟩ := inv
    obtain ⟨e, he⟩ := insertLoop_none y b q.pieces 0
    refine ⟨e, ?_⟩
    simp only [List.foldl_nil, PieceTable.insert, h1, he]
    rfl
  | cons d ds ih =>
    obtain ⟨h1, h2⟩ := inv
    simp only [List.foldl_cons]
    exact ih _ ⟨h1, deleteLoop_ne _ _ _ _ _ h2⟩

/-- **C07** Inserting at a negative position succeeds on every table from `NewPieceTable`, whatever its
history, but the text can then no longer be read. -/
theorem C07_negative_insert {pt : PieceTable} (h : Reachable pt) (x : Bytes) (a : Int) (ha : a < 0) :
    ∃ pt', pt.insert x a = .ok pt' ∧ ∃ e, pt'.string = .error e := by
  obtain ⟨⟨_, hw⟩, hb, hne⟩ := h.good
  obtain ⟨b, hb⟩ := Option.ne_none_iff_exists'.1 hb
  cases hp : pt.pieces with
  | nil => exact absurd hp hne
  | cons p ps =>
    rw [hp] at hw
    have hl := (AllWF.cons.1 hw).1.1
    refine ⟨_, by simp only [PieceTable.insert, hp, hb, insertLoop]; rw [if_pos (by omega)]; rfl, ?_⟩
    exact string_negative (q := ⟨a - (0 + p.length - p.length), p.offset, p.reader⟩) (by simp) (by simp only; omega)

example : ∃ pt', demo.insert b!"z" (-1) = .ok pt' ∧ ∃ e, pt'.string = .error e :=
  C07_negative_insert demo_reachable b!"z" (-1) (by decide)

/-- **C08** After `Close` of a table over a closable source, the text can be read iff no non-empty
piece refers to the original source, and then it is unchanged; if the source is not
closable `Close` changes nothing. -/
theorem C08_close {pt : PieceTable} (h : Reachable pt) {t : Bytes} (ht : pt.string = .ok t) :
    (pt.closable = false → pt.close.string = .ok t) ∧
    (pt.closable = true →
      ((∃ e, pt.close.string = .error e) ↔
        ∃ p ∈ pt.pieces, p.reader = .orig ∧ p.length ≠ 0) ∧
      ((∀ p ∈ pt.pieces, p.reader = .orig → p.length = 0) → pt.close.string = .ok t)) := by
  have g := h.good
  rw [string_wf g.toWF] at ht
  cases ht
  have hcl := totalLength_nonneg g.pieces
  refine ⟨fun hc => ?_, fun hc => ?_⟩
  · simp only [PieceTable.close, hc]
    exact string_wf g.toWF
  · have hclose : pt.close = { pt with closed := true } := by simp [PieceTable.close, hc]
    -- reading when no non-empty original piece is left
    have good : ∀ (ps : List Piece) (idx : Int), AllWF pt.orig ps →
        idx + totalLength ps ≤ totalLength pt.pieces →
        (∀ p ∈ ps, p.reader = .orig → p.length = 0) →
        pt.close.readPieces (totalLength pt.pieces) idx ps = .ok (content pt.orig ps) := by
      intro ps
      induction ps with
      | nil => intros; rfl
      | cons p ps ih =>
        intro idx hw hi hz
        rw [AllWF.cons] at hw
        have hn := totalLength_nonneg hw.2
        have htl := text_length hw.1
        have hp := hw.1.1
        simp only [totalLength] at hi
        simp only [PieceTable.readPieces, content]
        split
        · next h0 =>
          rw [ih _ hw.2 (by omega) (fun q hq => hz q (by simp [hq]))]
          have : (p.text pt.orig) = [] := List.length_eq_zero_iff.1 (by omega)
          simp [this]
        · next h0 =>
          rw [if_neg (by omega), if_neg (by omega)]
          have hs : pt.close.source p.reader = some (src pt.orig p.reader) := by
            cases hr : p.reader with
            | orig => exact absurd (hz p (by simp) hr) h0
            | mem b => rfl
          rw [hs, readAt_wf hw.1, ih _ hw.2 (by omega) (fun q hq => hz q (by simp [hq]))]
          rfl
    have bad : ∀ (ps : List Piece) (idx : Int),
        (∃ p ∈ ps, p.reader = .orig ∧ p.length ≠ 0) →
        ∃ e, pt.close.readPieces (totalLength pt.pieces) idx ps = .error e := by
      intro ps
      induction ps with
      | nil => rintro _ ⟨p, hp, _⟩; cases hp
      | cons p ps ih =>
        rintro idx ⟨q, hq, hr, hl⟩
        have hrec : p ≠ q → ∀ idx, ∃ e, pt.close.readPieces (totalLength pt.pieces) idx ps =
            .error e := by
          intro hne idx
          rcases List.mem_cons.1 hq with e | hm
          · exact absurd e.symm hne
          · exact ih idx ⟨q, hm, hr, hl⟩
        simp only [PieceTable.readPieces]
        split
        · next h0 => exact hrec (by rintro rfl; exact hl h0) _
        · split
          · exact ⟨_, rfl⟩
          · split
            · exact ⟨_, rfl⟩
            · by_cases hpq : p = q
              · subst hpq
                simp [hclose, PieceTable.source, hr, readAt]
              · split
                · exact ⟨_, rfl⟩
                · obtain ⟨e, he⟩ := hrec hpq (idx + p.length)
                  rw [he]
                  exact ⟨e, rfl⟩
    have hps : pt.close.pieces = pt.pieces := by simp [hclose]
    have hstr : pt.close.string =
        pt.close.readPieces (totalLength pt.pieces) 0 pt.pieces := by
      simp only [PieceTable.string, hps]
      rw [if_neg (by omega)]
    have hok : (∀ p ∈ pt.pieces, p.reader = .orig → p.length = 0) →
        pt.close.string = .ok (content pt.orig pt.pieces) := by
      intro hz
      rw [hstr]
      exact good pt.pieces 0 g.pieces (by omega) hz
    refine ⟨⟨fun ⟨e, he⟩ => ?_, fun hex => ?_⟩, hok⟩
    · apply Classical.byContradiction
      intro hno
      rw [hok (fun p hp hr => Classical.byContradiction fun h0 => hno ⟨p, hp, hr, h0⟩)] at he
      cases he
    · rw [hstr]
      exact bad pt.pieces 0 hex

example : ∃ e, demo.close.string = .error e :=
  ((C08_close demo_reachable demo_string).2 rfl).1.2 ⟨⟨1, 0, .orig⟩, by simp [demo], rfl, by decide⟩

/-- **C09** Compaction never changes the text. -/
theorem C09_clean_preserves {pt : PieceTable} (h : Reachable pt) :
    pt.clean.string = pt.string := by
  have g := h.good
  have hz : ∀ {p : Piece}, p.WF pt.orig → p.length ≤ 0 → p.text pt.orig = [] := by
    intro p hw h0
    have := text_length hw
    exact List.length_eq_zero_iff.1 (by omega)
  have loop : ∀ (ps : List Piece) (b : Bool), AllWF pt.orig ps →
      AllWF pt.orig (cleanLoop b ps) ∧ content pt.orig (cleanLoop b ps) = content pt.orig ps := by
    intro ps
    induction ps with
    | nil => intro b _; exact ⟨AllWF.nil, rfl⟩
    | cons p ps ih =>
      intro b hw
      rw [AllWF.cons] at hw
      simp only [cleanLoop]
      split
      · next hc =>
        refine ⟨(ih false hw.2).1, ?_⟩
        rw [(ih false hw.2).2]
        simp [content, hz hw.1 hc.1]
      · refine ⟨AllWF.cons.2 ⟨hw.1, (ih true hw.2).1⟩, ?_⟩
        simp [content, (ih true hw.2).2]
  have dw : ∀ (ps : List Piece), AllWF pt.orig ps →
      AllWF pt.orig (ps.dropWhile (fun p => p.length ≤ 0)) ∧
      content pt.orig (ps.dropWhile (fun p => p.length ≤ 0)) = content pt.orig ps := by
    intro ps
    induction ps with
    | nil => intro h; exact ⟨h, rfl⟩
    | cons p ps ih =>
      intro hw
      have hw' := AllWF.cons.1 hw
      by_cases hp : p.length ≤ 0
      · rw [List.dropWhile_cons_of_pos (by simpa using hp)]
        exact ⟨(ih hw'.2).1, by rw [(ih hw'.2).2]; simp [content, hz hw'.1 hp]⟩
      · rw [List.dropWhile_cons_of_neg (by simpa using hp)]
        exact ⟨hw, rfl⟩
  obtain ⟨d1, d2⟩ := dw pt.pieces g.pieces
  have hfin : AllWF pt.orig pt.clean.pieces ∧
      content pt.orig pt.clean.pieces = content pt.orig pt.pieces := by
    simp only [PieceTable.clean]
    cases hd : pt.pieces.dropWhile (fun p => p.length ≤ 0) with
    | nil => rw [hd] at d1 d2; exact ⟨d1, d2⟩
    | cons p ps =>
      rw [hd] at d1 d2
      have hw := AllWF.cons.1 d1
      obtain ⟨l1, l2⟩ := loop ps true hw.2
      exact ⟨AllWF.cons.2 ⟨hw.1, l1⟩, by rw [← d2]; simp [content, l2]⟩
  have hw' : pt.clean.WF := ⟨g.isOpen, hfin.1⟩
  rw [string_wf hw', string_wf g.toWF]
  exact congrArg _ hfin.2

example : demo.clean.string = .ok b!"hXYllo" := by
  rw [C09_clean_preserves demo_reachable]; exact demo_string

end Txt
