import Verif.Locale.EndToEnd

/-!
# C78 with collating sections

`LC_COLLATE` sections are read by state functions of their own (localelex.go:381-453). This file describes the
collating sections that are accepted, and proves C78 for files in which they stand between the other sections.
-/

namespace Locale
open Go

/-! ## Specification -/

/-- The direction given after `order_start`. -/
inductive Direction where
  | forward | backward | position
  deriving DecidableEq, Repr

/-- How it is written. -/
def Direction.word : Direction → Bytes
  | .forward => b!"forward"
  | .backward => b!"backward"
  | .position => b!"position"

/-- Its token. -/
def Direction.tm : Direction → Tm
  | .forward => .FORWARD_STR
  | .backward => .BACKWARD_STR
  | .position => .POSITION_STR

/-- A collating section: the header, a line `order_start` with at most one direction, names of characters one on a
line without anything else, `order_end`, and the end. The numbers are the blank lines after each line. -/
structure Collate where
  after : Ends := 0
  lead : Bytes := []
  gap : Bytes := []
  dir : Option Direction := none
  trail : Bytes := []
  startAfter : Ends := 0
  names : List (Bytes × Ends)
  orderAfter : Ends := 0
  endLead : Bytes := []
  endGap : Bytes := b!" "
  endAfter : Ends := 0
  deriving DecidableEq, Repr

/-- What is written after `order_start`. -/
def Collate.dirText (c : Collate) : Bytes :=
  match c.dir with
  | none => []
  | some d => d.word ++ c.trail

/-- The `order_start` line. -/
def Collate.startLine (c : Collate) : Bytes := c.lead ++ (b!"order_start" ++ (c.gap ++ c.dirText))

/-- The last line. -/
def Collate.endLine (c : Collate) : Bytes := c.endLead ++ (b!"END" ++ (c.endGap ++ b!"LC_COLLATE"))

/-- The lines of a collating section. -/
def Collate.lines (c : Collate) : List Bytes :=
  withEnds b!"LC_COLLATE" c.after ++ (withEnds c.startLine c.startAfter ++
    ((c.names.flatMap fun x => withEnds (charText x.1) x.2) ++
      (withEnds b!"order_end" c.orderAfter ++ withEnds c.endLine c.endAfter)))

/-- Blanks are blanks, there are some where two words meet, and names consist of letters, digits, `-` and `_`. -/
def Collate.WF (c : Collate) : Prop :=
  Blank c.lead ∧ Blank c.gap ∧ Blank c.trail ∧ Blank c.endLead ∧ Blank c.endGap ∧ c.endGap ≠ [] ∧
    (c.dir.isSome = true → c.gap ≠ []) ∧ ∀ x ∈ c.names, ∀ b ∈ x.1, b ∈ nameChars

/-- A section of either kind. -/
inductive Part where
  | plain (s : Section)
  | collate (c : Collate)
  deriving DecidableEq, Repr

/-- The lines of a section. -/
def Part.lines : Part → List Bytes
  | .plain s => s.lines
  | .collate c => c.lines

/-- It can be written. -/
def Part.WF : Part → Prop
  | .plain s => s.WF
  | .collate c => c.WF

/-- The grammar takes it: a collating section has to name something. -/
def Part.Accepted : Part → Prop
  | .plain s => s.Accepted
  | .collate c => c.names ≠ []

/-- What a section defines: a collating section nothing. -/
def Part.defines (d : Def) : Part → Def
  | .plain s => s.defines d
  | .collate _ => d

/-! ## Text and tokens -/

/-- The text of the names. -/
def namesText (ns : List (Bytes × Ends)) : Bytes := ns.flatMap fun x => charText x.1 ++ lineEnd x.2

/-- The text of a collating section. -/
def Collate.text (c : Collate) : Bytes :=
  b!"LC_COLLATE" ++ (lineEnd c.after ++ (c.startLine ++ (lineEnd c.startAfter ++ (namesText c.names ++
    (b!"order_end" ++ (lineEnd c.orderAfter ++ (c.endLine ++ lineEnd c.endAfter)))))))

/-- The tokens of the names. -/
def namesToks (ns : List (Bytes × Ends)) : List Tok :=
  ns.flatMap fun x => [⟨Tm.CHARSYMBOL.code, charText x.1⟩, eolTok x.2]

/-- The tokens of the direction. -/
def Collate.dirToks (c : Collate) : List Tok :=
  match c.dir with
  | none => []
  | some d => [⟨d.tm.code, d.word⟩]

/-- The tokens the lexer sends for it. -/
def Collate.dirSent (c : Collate) : List Tok :=
  match c.dir with
  | none => []
  | some d => ⟨d.tm.code, d.word⟩ :: wsTok c.trail

/-- The tokens of a collating section. -/
def Collate.toks (c : Collate) : List Tok :=
  ⟨Tm.LC_COLLATE_STR.code, b!"LC_COLLATE"⟩ :: eolTok c.after :: ⟨Tm.ORDER_START_STR.code, b!"order_start"⟩ ::
    (c.dirToks ++ eolTok c.startAfter :: (namesToks c.names ++ [⟨Tm.ORDER_END_STR.code, b!"order_end"⟩, eolTok c.orderAfter,
      ⟨Tm.END_STR.code, b!"END"⟩, ⟨Tm.LC_COLLATE_STR.code, b!"LC_COLLATE"⟩, eolTok c.endAfter]))

/-- The tokens the lexer sends for a collating section. -/
def Collate.sent (c : Collate) : List Tok :=
  ⟨Tm.LC_COLLATE_STR.code, b!"LC_COLLATE"⟩ :: eolTok c.after :: (wsTok c.lead ++ ⟨Tm.ORDER_START_STR.code, b!"order_start"⟩ ::
    (wsTok c.gap ++ (c.dirSent ++ eolTok c.startAfter :: (namesToks c.names ++ ⟨Tm.ORDER_END_STR.code, b!"order_end"⟩ :: eolTok c.orderAfter ::
      (wsTok c.endLead ++ (⟨Tm.END_STR.code, b!"END"⟩ :: (wsTok c.endGap ++ [⟨Tm.LC_COLLATE_STR.code, b!"LC_COLLATE"⟩, eolTok c.endAfter])))))))

/-- The text of a section. -/
def Part.text : Part → Bytes
  | .plain s => s.text
  | .collate c => c.text

/-- The tokens of a section. -/
def Part.toks : Part → List Tok
  | .plain s => s.toks
  | .collate c => c.toks

/-- The tokens the lexer sends for a section. -/
def Part.sent : Part → List Tok
  | .plain s => s.sent
  | .collate c => c.sent

/-! ## Lexing -/

theorem lowerChars_ascii : ∀ b ∈ lowerChars, b.toNat < 0x80 := by decide

theorem grabChar_none {b : UInt8} {pre rest t l} (hb : b.toNat < 0x80) (hne : b ≠ 60) (h : Pos pre [] (b :: rest) t l) :
    Runs grabChar l false (Pos pre [] (b :: rest) t) := by
  unfold grabChar
  refine (next_ascii hb h).bind fun l1 h1 => ?_
  rw [if_pos (by
    intro e
    simp only [Option.some.injEq] at e
    exact hne (UInt8.toNat_inj.mp e))]
  refine (rewind_ascii hb h1.1 h1.2).bind fun l2 h2 => ?_
  exact Runs.pure h2

theorem collate_header_lex {k : Ends} {pre rest t l} (hrest : Stops newLine rest)
    (h : Pos pre [] (b!"LC_COLLATE" ++ (lineEnd k ++ rest)) t l) :
    Runs sCategory l (some .collate)
      (Pos (pre ++ (b!"LC_COLLATE" ++ lineEnd k)) [] rest (t ++ [⟨Tm.LC_COLLATE_STR.code, b!"LC_COLLATE"⟩, eolTok k])) := by
  unfold sCategory
  refine (take_spec (chars := upperChars ++ b!"_") (x := b!"LC_COLLATE") headChars_ascii (by decide)
    (lineEnd_stops _ _ _ (by decide)) h).bind fun l1 k1 => ?_
  refine (current_spec k1).bind fun l2 k2 => ?_
  refine (emit_spec k2 _).bind fun l3 k3 => ?_
  refine (take_spec (x := []) whiteSpace_ascii (by simp) (lineEnd_stops k rest _ (by decide)) k3).bind fun l4 k4 => ?_
  refine (must_spec (grabEnds_spec hrest k4)).bind fun l5 k5 => ?_
  exact Runs.pure (by simpa [eolTok] using k5)

theorem order_start_lex {lead : Bytes} (hl : Blank lead) {esc : Nat → Nat} {n : Nat} {pre rest t l} (hrest : Stops wordChars rest)
    (h : Pos pre [] (lead ++ (b!"order_start" ++ rest)) t l) :
    Runs (sCollate esc n) l (some .orderStart)
      (Pos (pre ++ (lead ++ b!"order_start")) [] rest (t ++ (wsTok lead ++ [⟨Tm.ORDER_START_STR.code, b!"order_start"⟩]))) := by
  unfold sCollate
  obtain ⟨b, hb⟩ := grabWhitespace_any hl (lettered_stops (x := b!"order_start" ++ rest) (by
    show (111 : UInt8) ∈ wordChars
    decide)).1 h
  refine hb.bind fun l1 k1 => ?_
  refine (take_spec (chars := wordChars) (x := b!"order_start") wordChars_ascii (by decide) hrest k1).bind fun l2 k2 => ?_
  refine (current_spec k2).bind fun l3 k3 => ?_
  rw [if_neg (by decide), if_pos (by rfl)]
  refine (emit_spec k3 _).bind fun l4 k4 => ?_
  exact Runs.pure (by simpa using k4)

theorem line_end_lex {gap : Bytes} (hg : Blank gap) {k : Ends} {pre rest t l} (hrest : Stops newLine rest)
    (h : Pos pre [] (gap ++ (lineEnd k ++ rest)) t l) :
    Runs sOrderStart l (some .order) (Pos (pre ++ (gap ++ lineEnd k)) [] rest (t ++ (wsTok gap ++ [eolTok k]))) := by
  unfold sOrderStart
  obtain ⟨b, hb⟩ := grabWhitespace_any hg (lineEnd_stops k rest whiteSpace (by decide)) h
  refine hb.bind fun l1 k1 => ?_
  refine (take_spec (x := []) lowerChars_ascii (by simp) (lineEnd_stops k rest _ (by decide)) k1).bind fun l2 k2 => ?_
  refine (current_spec k2).bind fun l3 k3 => ?_
  rw [if_pos (by rfl)]
  refine (must_spec (grabEnds_spec hrest k3)).bind fun l5 k5 => ?_
  exact Runs.pure (by simpa [eolTok] using k5)

theorem direction_lex {gap : Bytes} (hg : Blank gap) (d : Direction) {pre rest t l} (hrest : Stops lowerChars rest)
    (h : Pos pre [] (gap ++ (d.word ++ rest)) t l) :
    Runs sOrderStart l (some .orderStart) (Pos (pre ++ (gap ++ d.word)) [] rest (t ++ (wsTok gap ++ [⟨d.tm.code, d.word⟩]))) := by
  unfold sOrderStart
  have hlet : Lettered d.word := by cases d <;> (simp only [Direction.word, Lettered]; decide)
  obtain ⟨b, hb⟩ := grabWhitespace_any hg (lettered_stops hlet.append).1 h
  refine hb.bind fun l1 k1 => ?_
  refine (take_spec (x := d.word) lowerChars_ascii (by cases d <;> decide) hrest k1).bind fun l2 k2 => ?_
  refine (current_spec k2).bind fun l3 k3 => ?_
  simp only [List.nil_append] at k3 ⊢
  have key : Runs (do emit d.tm.code; pure (some St.orderStart)) l3 (some .orderStart)
      (Pos (pre ++ (gap ++ d.word)) [] rest (t ++ (wsTok gap ++ [⟨d.tm.code, d.word⟩]))) := by
    refine (emit_spec k3 _).bind fun l4 k4 => ?_
    exact Runs.pure (by simpa using k4)
  cases d
  · rw [if_neg (by decide), if_pos (by rfl)]; exact key
  · rw [if_neg (by decide), if_neg (by decide), if_pos (by rfl)]; exact key
  · rw [if_neg (by decide), if_neg (by decide), if_neg (by decide), if_pos (by rfl)]; exact key

theorem name_lex {x : Bytes} {k : Ends} (hx : ∀ b ∈ x, b ∈ nameChars) {pre rest t l} (hrest : Stops newLine rest)
    (h : Pos pre [] (charText x ++ (lineEnd k ++ rest)) t l) :
    Runs sOrder l (some .order)
      (Pos (pre ++ (charText x ++ lineEnd k)) [] rest (t ++ [⟨Tm.CHARSYMBOL.code, charText x⟩, eolTok k])) := by
  unfold sOrder
  refine (grabChar_spec hx (by simpa [charText] using h)).bind fun l1 k1 => ?_
  rw [if_neg (by simp)]
  refine (must_spec (grabEnds_spec hrest k1)).bind fun l5 k5 => ?_
  exact Runs.pure (by simpa [eolTok, charText] using k5)

theorem order_end_lex {k : Ends} {pre rest t l} (hrest : Stops newLine rest)
    (h : Pos pre [] (b!"order_end" ++ (lineEnd k ++ rest)) t l) :
    Runs sOrder l (some .collate)
      (Pos (pre ++ (b!"order_end" ++ lineEnd k)) [] rest (t ++ [⟨Tm.ORDER_END_STR.code, b!"order_end"⟩, eolTok k])) := by
  unfold sOrder
  refine (grabChar_none (b := 111) (rest := b!"rder_end" ++ (lineEnd k ++ rest)) (by decide) (by decide) h).bind fun l1 k1 => ?_
  rw [if_pos (by rfl)]
  refine (take_spec (x := b!"order_end") lowerChars_ascii (by decide) (lineEnd_stops k rest _ (by decide)) k1).bind fun l2 k2 => ?_
  refine (current_spec k2).bind fun l3 k3 => ?_
  rw [if_neg (by decide)]
  refine (emit_spec k3 _).bind fun l5 k5 => ?_
  refine (must_spec (grabEnds_spec hrest k5)).bind fun l6 k6 => ?_
  exact Runs.pure (by simpa [eolTok] using k6)

theorem collate_end_lex {lead gap : Bytes} (h1 : Blank lead) (h2 : Blank gap) (h3 : gap ≠ []) {esc : Nat → Nat} {n : Nat} {k : Ends} {pre rest t l}
    (hrest : Stops newLine rest) (h : Pos pre [] (lead ++ (b!"END" ++ (gap ++ (b!"LC_COLLATE" ++ (lineEnd k ++ rest))))) t l) :
    Runs (sCollate esc n) l (some .category)
      (Pos (pre ++ (lead ++ (b!"END" ++ (gap ++ (b!"LC_COLLATE" ++ lineEnd k))))) [] rest
        (t ++ (wsTok lead ++ (⟨Tm.END_STR.code, b!"END"⟩ :: (wsTok gap ++ [⟨Tm.LC_COLLATE_STR.code, b!"LC_COLLATE"⟩, eolTok k]))))) := by
  unfold sCollate
  obtain ⟨b, hb⟩ := grabWhitespace_any h1
    (lettered_stops (x := b!"END" ++ (gap ++ (b!"LC_COLLATE" ++ (lineEnd k ++ rest)))) (by
      show (69 : UInt8) ∈ wordChars
      decide)).1 h
  refine hb.bind fun l1 k1 => ?_
  refine (take_spec (chars := wordChars) (x := b!"END") wordChars_ascii (by decide) (blank_stops h2 h3 _ (by decide)) k1).bind fun l2 k2 => ?_
  refine (current_spec k2).bind fun l3 k3 => ?_
  rw [if_pos (by rfl)]
  refine (emit_spec k3 _).bind fun l4 k4 => ?_
  refine (must_spec (grabWhitespace_some h2 h3 (lettered_stops (x := b!"LC_COLLATE" ++ (lineEnd k ++ rest)) (by
    show (76 : UInt8) ∈ wordChars
    decide)).1 k4)).bind fun l5 k5 => ?_
  refine (take_spec (x := b!"LC_COLLATE") upperChars_ascii (by decide) (lineEnd_stops k rest _ (by decide)) k5).bind fun l6 k6 => ?_
  refine (current_spec k6).bind fun l7 k7 => ?_
  rw [if_neg (by decide)]
  refine (emit_spec k7 _).bind fun l9 k9 => ?_
  refine (grabEnds_spec hrest k9).bind fun l10 k10 => ?_
  refine Runs.pure ?_
  simpa [wsTok, h3, eolTok] using k10

/-- One round of the main loop. -/
theorem loop_step {esc : Nat → Nat} {n k : Nat} {st st' : St} {l : L} {P Q : L → Prop} (h : Runs (st.call esc n) l (some st') P)
    (hk : ∀ l', P l' → Runs (runLoop esc n k st') l' () Q) : Runs (runLoop esc n (k + 1) st) l () Q := by
  rw [runLoop]
  exact h.bind hk

theorem names_lex {ns : List (Bytes × Ends)} (hs : ∀ x ∈ ns, ∀ b ∈ x.1, b ∈ nameChars) {esc : Nat → Nat} {n : Nat}
    {k : Nat} {pre rest t l} {Q : L → Prop} (hrest : Stops newLine rest)
    (h : Pos pre [] (namesText ns ++ rest) t l)
    (hk : ∀ l', Pos (pre ++ namesText ns) [] rest (t ++ namesToks ns) l' → Runs (runLoop esc n k .order) l' () Q) :
    Runs (runLoop esc n (ns.length + k) .order) l () Q := by
  induction ns generalizing pre t l with
  | nil =>
    simp only [List.length_nil, Nat.zero_add]
    exact hk l (by simpa [namesText, namesToks] using h)
  | cons s ss ih =>
    rw [show (s :: ss).length + k = (ss.length + k) + 1 by simp; omega]
    have h' : Pos pre [] (charText s.1 ++ (lineEnd s.2 ++ (namesText ss ++ rest))) t l := by
      simpa [namesText] using h
    have hst : Stops newLine (namesText ss ++ rest) := by
      cases ss with
      | nil => exact hrest
      | cons s' ss' => exact ⟨by decide, by decide⟩
    refine loop_step (name_lex (hs s (by simp)) hst h') fun l1 k1 => ?_
    refine ih (fun x hx => hs x (by simp [hx])) k1 (fun l' hl' => hk l' ?_)
    simpa [namesText, namesToks] using hl'

/-- The rounds of the main loop for the `order_start` line. -/
def Collate.startRounds (c : Collate) : Nat := if c.dir.isSome then 2 else 1

/-- Rounds of the main loop for a section. -/
def Part.rounds : Part → Nat
  | .plain s => s.stmts.length + 2
  | .collate c => c.startRounds + c.names.length + 4

theorem collate_lex {c : Collate} (hc : c.WF) {esc : Nat → Nat} {n : Nat}
    {k : Nat} {pre rest t l} {Q : L → Prop} (hrest : Stops newLine rest) (h : Pos pre [] (c.text ++ rest) t l)
    (hk : ∀ l', Pos (pre ++ c.text) [] rest (t ++ c.sent) l' → Runs (runLoop esc n k .category) l' () Q) :
    Runs (runLoop esc n ((Part.collate c).rounds + k) .category) l () Q := by
  obtain ⟨w1, w2, w3, w4, w5, w6, w7, w8⟩ := hc
  have e : (Part.collate c).rounds + k = (c.startRounds + (c.names.length + (k + 1 + 1)) + 1) + 1 := by
    simp only [Part.rounds]; omega
  rw [e]
  simp only [Collate.text, Collate.startLine, Collate.endLine, List.append_assoc] at h
  refine loop_step (collate_header_lex (lead_stops w1 (by show (111 : UInt8) ∈ wordChars; decide)) h) fun l1 k1 => ?_
  have hst : Stops wordChars (c.gap ++ (c.dirText ++ (lineEnd c.startAfter ++ (namesText c.names ++
      (b!"order_end" ++ (lineEnd c.orderAfter ++ (c.endLead ++ (b!"END" ++ (c.endGap ++ (b!"LC_COLLATE" ++
        (lineEnd c.endAfter ++ rest))))))))))) := by
    by_cases hg : c.gap = []
    · have : c.dir = none := by
        cases hd : c.dir with
        | none => rfl
        | some d => exact absurd hg (w7 (by simp [hd]))
      simp only [hg, Collate.dirText, this, List.nil_append]
      exact lineEnd_stops _ _ _ (by decide)
    · exact blank_stops w2 hg _ (by decide)
  refine loop_step (order_start_lex w1 hst k1) fun l2 k2 => ?_
  have hend : Stops newLine (c.endLead ++ (b!"END" ++ (c.endGap ++ (b!"LC_COLLATE" ++ (lineEnd c.endAfter ++ rest))))) :=
    lead_stops w4 (by show (69 : UInt8) ∈ wordChars; decide)
  have hord : Stops newLine (b!"order_end" ++ (lineEnd c.orderAfter ++ (c.endLead ++ (b!"END" ++ (c.endGap ++ (b!"LC_COLLATE" ++
      (lineEnd c.endAfter ++ rest))))))) := ⟨by decide, by decide⟩
  have hnam : Stops newLine (namesText c.names ++ (b!"order_end" ++ (lineEnd c.orderAfter ++ (c.endLead ++ (b!"END" ++ (c.endGap ++
      (b!"LC_COLLATE" ++ (lineEnd c.endAfter ++ rest)))))))) := by
    cases hn : c.names with
    | nil => exact hord
    | cons x xs => exact ⟨by decide, by decide⟩
  have tail : ∀ l3, Pos (pre ++ (b!"LC_COLLATE" ++ lineEnd c.after) ++ (c.startLine ++ lineEnd c.startAfter)) []
      (namesText c.names ++ (b!"order_end" ++ (lineEnd c.orderAfter ++ (c.endLead ++ (b!"END" ++ (c.endGap ++ (b!"LC_COLLATE" ++
        (lineEnd c.endAfter ++ rest)))))))) (t ++ [⟨Tm.LC_COLLATE_STR.code, b!"LC_COLLATE"⟩, eolTok c.after] ++
          (wsTok c.lead ++ [⟨Tm.ORDER_START_STR.code, b!"order_start"⟩] ++ (wsTok c.gap ++ (c.dirSent ++ [eolTok c.startAfter])))) l3 →
      Runs (runLoop esc n (c.names.length + (k + 1 + 1)) .order) l3 () Q := by
    intro l3 k3
    refine names_lex w8 hord k3 fun l4 k4 => ?_
    refine loop_step (order_end_lex hend k4) fun l5 k5 => ?_
    refine loop_step (collate_end_lex w4 w5 w6 hrest k5) fun l6 k6 => ?_
    refine hk l6 ?_
    simpa [Collate.text, Collate.sent, Collate.startLine, Collate.endLine] using k6
  cases hd : c.dir with
  | none =>
    have e1 : c.startRounds = 1 := by simp [Collate.startRounds, hd]
    rw [e1, Nat.add_comm 1]
    have k2' := k2
    simp only [Collate.dirText, hd, List.nil_append] at k2'
    refine loop_step (line_end_lex w2 hnam k2') fun l3 k3 => tail l3 ?_
    simpa [Collate.startLine, Collate.dirText, Collate.dirSent, hd] using k3
  | some d =>
    have e1 : c.startRounds = 2 := by simp [Collate.startRounds, hd]
    rw [e1, Nat.add_comm 2, show c.names.length + (k + 1 + 1) + 2 = (c.names.length + (k + 1 + 1) + 1) + 1 from rfl]
    have k2' := k2
    simp only [Collate.dirText, hd, List.append_assoc] at k2'
    have hs : Stops lowerChars (c.trail ++ (lineEnd c.startAfter ++ (namesText c.names ++ (b!"order_end" ++ (lineEnd c.orderAfter ++
        (c.endLead ++ (b!"END" ++ (c.endGap ++ (b!"LC_COLLATE" ++ (lineEnd c.endAfter ++ rest)))))))))) := by
      by_cases hg : c.trail = []
      · rw [hg]; exact lineEnd_stops _ _ _ (by decide)
      · exact blank_stops w3 hg _ (by decide)
    refine loop_step (direction_lex w2 d hs k2') fun l3 k3 => ?_
    refine loop_step (line_end_lex w3 hnam k3) fun l4 k4 => tail l4 ?_
    simpa [Collate.startLine, Collate.dirText, Collate.dirSent, hd] using k4

/-- Rounds of the inner loops for a section. -/
def Part.size : Part → Nat
  | .plain s => (s.stmts.map fun x => x.val.size).sum
  | .collate _ => 0

theorem part_lex {p : Part} (hp : p.WF) {n : Nat} (hn : p.size ≤ n)
    {k : Nat} {pre rest t l} {Q : L → Prop} (hrest : Stops newLine rest) (h : Pos pre [] (p.text ++ rest) t l)
    (hk : ∀ l', Pos (pre ++ p.text) [] rest (t ++ p.sent) l' → Runs (runLoop backslash n k .category) l' () Q) :
    Runs (runLoop backslash n (p.rounds + k) .category) l () Q := by
  cases p with
  | plain s =>
    rw [show (Part.plain s).rounds + k = s.stmts.length + (k + 1) + 1 by simp only [Part.rounds]; omega]
    refine section_lex hp ?_ hrest h hk
    intro x hx
    exact Nat.le_trans (mem_sum_le (xs := s.stmts.map fun x => x.val.size) (List.mem_map.mpr ⟨x, hx, rfl⟩)) (show (s.stmts.map fun x => x.val.size).sum ≤ n from hn)
  | collate c => exact collate_lex hp hrest h hk

theorem part_stops (p : Part) (rest : Bytes) : Stops newLine (p.text ++ rest) := by
  cases p with
  | plain s =>
    have hl : Lettered s.cat.name := by cases s.cat <;> (simp only [Cat.name, Lettered]; decide)
    simp only [Part.text, Section.text, List.append_assoc]
    exact (lettered_stops hl.append).2
  | collate c => exact ⟨by decide, by decide⟩

theorem parts_lex (f : List Part) (hf : ∀ p ∈ f, p.WF) (n : Nat) (hn : ∀ p ∈ f, p.size ≤ n)
    {rest : Bytes} (hr : Foreign rest) {k pre t l} (h : Pos pre [] (f.flatMap Part.text ++ rest) t l) :
    Runs (runLoop backslash n ((f.map Part.rounds).sum + (k + 1)) .category) l () fun l' => l'.toks = t ++ f.flatMap Part.sent := by
  induction f generalizing pre t l with
  | nil =>
    simp only [List.map_nil, List.sum_nil, Nat.zero_add, runLoop, St.call]
    refine (nothing_lex hr h).bind fun l1 k1 => ?_
    exact Runs.pure (by simpa using k1)
  | cons p f ih =>
    rw [show ((p :: f).map Part.rounds).sum + (k + 1) = p.rounds + ((f.map Part.rounds).sum + (k + 1)) by simp; omega]
    simp only [List.flatMap_cons, List.append_assoc] at h
    have hst : Stops newLine (f.flatMap Part.text ++ rest) := by
      cases f with
      | nil =>
        obtain ⟨w, r, rfl, -, -, h3, -⟩ := hr
        exact h3
      | cons p' f =>
        simp only [List.flatMap_cons, List.append_assoc]
        exact part_stops p' _
    refine part_lex (hf p (by simp)) (hn p (by simp)) hst h fun l' h' => ?_
    have := ih (fun x hx => hf x (by simp [hx])) (fun x hx => hn x (by simp [hx])) h'
    simpa using this

/-! ## Tokens -/

theorem Direction.tm_ok (d : Direction) : d.tm.code ≠ Tm.NUMBER.code ∧ dangerous d.tm.code = false := by cases d <;> decide +kernel

theorem visible_names (ns : List (Bytes × Ends)) : visible (namesToks ns) = namesToks ns := by
  refine visible_all fun t ht => ?_
  obtain ⟨x, -, ht⟩ := List.mem_flatMap.mp ht
  simp only [eolTok, List.mem_cons, List.not_mem_nil, or_false] at ht
  rcases ht with rfl | rfl
  · exact code_ne .CHARSYMBOL
  · exact code_ne .EOL

theorem visible_part (p : Part) : visible p.sent = p.toks := by
  cases p with
  | plain s =>
    have := visible_sent [s]
    simp only [List.flatMap_cons, List.flatMap_nil, List.append_nil] at this
    exact this
  | collate c =>
    have e : ∀ (k : Ends) ts, visible (eolTok k :: ts) = eolTok k :: visible ts := fun k ts => visible_cons .EOL _ ts
    have hd : visible c.dirSent = c.dirToks := by
      unfold Collate.dirSent Collate.dirToks
      split
      · rfl
      · rw [visible_cons, visible_ws]
    simp only [Part.sent, Part.toks, Collate.sent, Collate.toks, visible_cons, e, visible_append, visible_ws, hd, visible_names,
      List.nil_append]
    rfl

theorem visible_parts (f : List Part) : visible (f.flatMap Part.sent) = f.flatMap Part.toks := by
  induction f with
  | nil => rfl
  | cons p f ih => simp only [List.flatMap_cons, visible_append, visible_part, ih]

theorem dirToks_mem {c : Collate} {t : Tok} (h : t ∈ c.dirToks) : ∃ d : Direction, t = ⟨d.tm.code, d.word⟩ := by
  unfold Collate.dirToks at h
  split at h
  · cases h
  · rename_i d _
    exact ⟨d, by simpa using h⟩

theorem part_coded {p : Part} (hp : p.WF) : ∀ t ∈ p.toks, (∃ x : Tm, t.code = x.code) ∧
    (t.code = Tm.NUMBER.code → (59 : UInt8) ∉ t.val) := by
  cases p with
  | plain s =>
    have := file_coded [s] (by simpa using (show s.WF from hp))
    intro t ht
    have ht' : t ∈ [s].flatMap Section.toks := by simpa using (show t ∈ s.toks from ht)
    exact ⟨this.1 t ht', this.2 t ht'⟩
  | collate c =>
    intro t ht
    simp only [Part.toks, Collate.toks, namesToks, eolTok, List.mem_cons, List.mem_append, List.mem_flatMap, List.not_mem_nil, or_false] at ht
    have one : ∀ (x : Tm) (v : Bytes), x ≠ .NUMBER → (∃ y : Tm, (⟨x.code, v⟩ : Tok).code = y.code) ∧
        ((⟨x.code, v⟩ : Tok).code = Tm.NUMBER.code → (59 : UInt8) ∉ v) := by
      intro x v hx
      refine ⟨⟨x, rfl⟩, fun hc => ?_⟩
      have : (Tm.list.all fun x => decide (x.code = Tm.NUMBER.code → x = .NUMBER)) = true := by decide +kernel
      have := List.all_eq_true.mp this x (List.mem_of_getElem? (Tm.list_get x))
      exact absurd (of_decide_eq_true this hc) hx
    rcases ht with rfl | rfl | rfl | ht | rfl | ⟨x, -, rfl | rfl⟩ | rfl | rfl | rfl | rfl | rfl
    case inr.inr.inr.inl =>
      obtain ⟨d, rfl⟩ := dirToks_mem ht
      exact one _ _ (by cases d <;> decide)
    all_goals exact one _ _ (by decide)

theorem part_derives {p : Part} (hp : p.WF) (ha : p.Accepted) : D [.n .locale_category] p.toks := by
  cases p with
  | plain s => exact section_derives hp ha
  | collate c =>
    refine D.prod ⟨.locale_category, [.n .lc_collate]⟩ (by decide +kernel) ?_
    refine D.prod ⟨.lc_collate, [.n .collate_hdr, .n .collate_keywords, .n .collate_tlr]⟩ (by decide +kernel) ?_
    have e : (Part.collate c).toks = [⟨Tm.LC_COLLATE_STR.code, b!"LC_COLLATE"⟩, eolTok c.after] ++
        (((⟨Tm.ORDER_START_STR.code, b!"order_start"⟩ :: (c.dirToks ++ [eolTok c.startAfter])) ++
          ((c.names.map fun x => [(⟨Tm.CHARSYMBOL.code, charText x.1⟩ : Tok), eolTok x.2]).flatten ++
            [⟨Tm.ORDER_END_STR.code, b!"order_end"⟩, eolTok c.orderAfter])) ++
        [⟨Tm.END_STR.code, b!"END"⟩, ⟨Tm.LC_COLLATE_STR.code, b!"LC_COLLATE"⟩, eolTok c.endAfter]) := by
      simp [Part.toks, Collate.toks, namesToks, List.flatMap_def]
    rw [e]
    refine (D.prod ⟨.collate_hdr, [.t .LC_COLLATE_STR, .t .EOL]⟩ (by decide +kernel) ((D.tm _ _).cons (D.tm _ _))).cons (D.cons ?_ ?_)
    · refine D.prod ⟨.collate_keywords, [.n .order_statements]⟩ (by decide +kernel) ?_
      refine D.prod ⟨.order_statements, [.n .order_start, .n .collation_order, .n .order_end]⟩ (by decide +kernel) ?_
      refine D.cons ?_ (D.cons ?_ ?_)
      · cases hd : c.dir with
        | none =>
          simp only [Collate.dirToks, hd, List.nil_append]
          exact D.prod ⟨.order_start, [.t .ORDER_START_STR, .t .EOL]⟩ (by decide +kernel) ((D.tm _ _).cons (D.tm _ _))
        | some d =>
          simp only [Collate.dirToks, hd]
          refine D.prod ⟨.order_start, [.t .ORDER_START_STR, .n .order_opts, .t .EOL]⟩ (by decide +kernel) ((D.tm _ _).cons (D.cons (ts := [⟨d.tm.code, d.word⟩]) ?_ (D.tm _ _)))
          refine D.prod ⟨.order_opts, [.n .order_opt]⟩ (by decide +kernel) (D.prod ⟨.order_opt, [.n .opt_word]⟩ (by decide +kernel) ?_)
          cases d
          · exact D.prod ⟨.opt_word, [.t .FORWARD_STR]⟩ (by decide +kernel) (D.tm _ _)
          · exact D.prod ⟨.opt_word, [.t .BACKWARD_STR]⟩ (by decide +kernel) (D.tm _ _)
          · exact D.prod ⟨.opt_word, [.t .POSITION_STR]⟩ (by decide +kernel) (D.tm _ _)
      · refine D.many .collation_order .collation_entry (by decide +kernel) (by decide +kernel) (by simpa using (show c.names ≠ [] from ha)) ?_
        intro x hx
        obtain ⟨y, -, rfl⟩ := List.mem_map.mp hx
        exact D.prod ⟨.collation_entry, [.n .collation_element, .t .EOL]⟩ (by decide +kernel)
          ((D.prod ⟨.collation_element, [.n .char_symbol]⟩ (by decide +kernel) (char_symbol_derives _).2).cons (D.tm _ _))
      · exact D.prod ⟨.order_end, [.t .ORDER_END_STR, .t .EOL]⟩ (by decide +kernel) ((D.tm _ _).cons (D.tm _ _))
    · exact D.prod ⟨.collate_tlr, [.t .END_STR, .t .LC_COLLATE_STR, .t .EOL]⟩ (by decide +kernel)
        ((D.tm _ _).cons ((D.tm _ _).cons (D.tm _ _)))

theorem parts_derive {f : List Part} (hne : f ≠ []) (hf : ∀ p ∈ f, p.WF) (ha : ∀ p ∈ f, p.Accepted) :
    D [.n .locale_definition] (f.flatMap Part.toks) := by
  refine D.prod ⟨.locale_definition, [.n .locale_categories]⟩ (by decide +kernel) ?_
  rw [List.flatMap_def]
  refine D.many .locale_categories .locale_category (by decide +kernel) (by decide +kernel) (by simpa using hne) ?_
  intro x hx
  obtain ⟨y, hy, rfl⟩ := List.mem_map.mp hx
  exact part_derives (hf y hy) (ha y hy)

/-! ## What the tokens define -/

theorem section_feed {s : Section} (hs : s.WF) (ha : s.Accepted) (d : Def) : s.toks.foldl feed ([], d) = ([], s.defines d) := by
  have := file_feed [s] (by simpa using hs) (by simpa using ha) d
  simpa using this

theorem part_feed {p : Part} (hp : p.WF) (ha : p.Accepted) (d : Def) : p.toks.foldl feed ([], d) = ([], p.defines d) := by
  cases p with
  | plain s => exact section_feed hp ha d
  | collate c =>
    have e : (Part.collate c).toks = ([⟨Tm.LC_COLLATE_STR.code, b!"LC_COLLATE"⟩] ++ [⟨Tm.EOL.code, lineEnd c.after⟩]) ++
        (((⟨Tm.ORDER_START_STR.code, b!"order_start"⟩ :: c.dirToks) ++ [⟨Tm.EOL.code, lineEnd c.startAfter⟩]) ++
          (namesToks c.names ++ (([⟨Tm.ORDER_END_STR.code, b!"order_end"⟩] ++ [⟨Tm.EOL.code, lineEnd c.orderAfter⟩]) ++
        ([⟨Tm.END_STR.code, b!"END"⟩, ⟨Tm.LC_COLLATE_STR.code, b!"LC_COLLATE"⟩] ++ [⟨Tm.EOL.code, lineEnd c.endAfter⟩])))) := by
      simp [Part.toks, Collate.toks, eolTok]
    have names : ∀ (ns : List (Bytes × Ends)), (namesToks ns).foldl feed ([], d) = ([], d) := by
      intro ns
      induction ns with
      | nil => rfl
      | cons x xs ih =>
        have e : namesToks (x :: xs) = ([⟨Tm.CHARSYMBOL.code, charText x.1⟩] ++ [⟨Tm.EOL.code, lineEnd x.2⟩]) ++ namesToks xs := by
          simp [namesToks, eolTok]
        rw [e, List.foldl_append, feed_safe_line (by simp; decide) rfl, ih]
    have dir : ∀ t ∈ (⟨Tm.ORDER_START_STR.code, b!"order_start"⟩ :: c.dirToks : List Tok), dangerous t.code = false := by
      intro t ht
      rcases List.mem_cons.mp ht with rfl | ht
      · decide
      · obtain ⟨d, rfl⟩ := dirToks_mem ht
        exact d.tm_ok.2
    rw [e, List.foldl_append, feed_safe_line (by simp; decide) rfl, List.foldl_append, feed_safe_line dir rfl, List.foldl_append, names,
      List.foldl_append, feed_safe_line (by simp; decide) rfl, feed_safe_line (by
        intro t ht
        simp only [List.mem_cons, List.not_mem_nil, or_false] at ht
        rcases ht with rfl | rfl <;> decide) rfl]
    rfl

theorem parts_mean (f : List Part) (hf : ∀ p ∈ f, p.WF) (ha : ∀ p ∈ f, p.Accepted) (d : Def) :
    (tokLines [] (f.flatMap Part.toks)).foldl stmt d = f.foldl Part.defines d := by
  rw [← feed_lines]
  suffices h : (f.flatMap Part.toks).foldl feed ([], d) = ([], f.foldl Part.defines d) by rw [h]
  induction f generalizing d with
  | nil => rfl
  | cons p f ih =>
    rw [List.flatMap_cons, List.foldl_append, List.foldl_cons, part_feed (hf p (by simp)) (ha p (by simp))]
    exact ih (fun x hx => hf x (by simp [hx])) (fun x hx => ha x (by simp [hx])) _

theorem parts_parse (f : List Part) (hne : f ≠ []) (hf : ∀ p ∈ f, p.WF) (ha : ∀ p ∈ f, p.Accepted) (handler : Bool) (d : Def) :
    parse handler (f.flatMap Part.toks) d = .ok (0, f.foldl Part.defines d) := by
  obtain ⟨vs, d', h⟩ := parts_derive hne hf ha d
  have hl := h.length
  match vs, hl with
  | [v], _ =>
    have hp := C57_complete handler _ d d' ⟨v, h⟩
    have hc : ∀ t ∈ f.flatMap Part.toks, (∃ x : Tm, t.code = x.code) ∧ (t.code = Tm.NUMBER.code → (59 : UInt8) ∉ t.val) := by
      intro t ht
      obtain ⟨p, hp, ht⟩ := List.mem_flatMap.mp ht
      exact part_coded (hf p hp) t ht
    have := C58_stores handler _ (fun t ht => by
      obtain ⟨x, hx⟩ := (hc t ht).1
      rw [hx]
      have : (Tm.list.all fun x => decide (0 < x.code)) = true := by decide +kernel
      simpa using List.all_eq_true.mp this x (List.mem_of_getElem? (Tm.list_get x))) (fun t ht => (hc t ht).2) d d' hp
    rw [hp, this, parts_mean f hf ha]

/-! ## Lines -/

theorem part_text_lines (p : Part) : p.text = unlines p.lines := by
  cases p with
  | plain s =>
    have := fileText_lines [s]
    simp only [fileText, fileLines, List.flatMap_cons, List.flatMap_nil, List.append_nil] at this
    exact this
  | collate c =>
    have names : ∀ ns : List (Bytes × Ends), namesText ns = unlines (ns.flatMap fun x => withEnds (charText x.1) x.2) := by
      intro ns
      induction ns with
      | nil => rfl
      | cons x xs ih =>
        have : namesText (x :: xs) = charText x.1 ++ lineEnd x.2 ++ namesText xs := by simp [namesText]
        rw [this, ih, List.flatMap_cons, unlines_append]
        simp [unlines_ends]
    simp [Part.text, Part.lines, Collate.text, Collate.lines, unlines_append, unlines_ends, names]

theorem parts_text_lines (f : List Part) : f.flatMap Part.text = unlines (f.flatMap Part.lines) := by
  induction f with
  | nil => rfl
  | cons p f ih => simp only [List.flatMap_cons, unlines_append, part_text_lines, ih]

theorem Blank.append {a b : Bytes} (ha : Blank a) (hb : Blank b) : Blank (a ++ b) := by
  intro x hx
  rcases List.mem_append.mp hx with h | h
  · exact ha x h
  · exact hb x h

theorem blank_solid {x : Bytes} (h : Blank x) (hne : x ≠ []) : Solid x := by
  refine ⟨x.dropLast, x.getLast hne, (List.dropLast_concat_getLast hne).symm, ?_⟩
  have := h _ (List.getLast_mem hne)
  have all : ∀ b ∈ whiteSpace, b.toNat < 0x80 ∧ b ≠ 92 := by decide
  exact all _ this

/-- Lines that start with blanks and a word. -/
theorem start_plain {lead word rest : Bytes} (h1 : Blank lead) (h2 : ∀ b ∈ word, b ∈ wordChars) (h2' : word ≠ [])
    (hr : nl ∉ rest) (hs : Solid (word ++ rest)) (hc : word.head? ≠ some 99) (he : word.head? ≠ some 101) :
    PlainLine (lead ++ (word ++ rest)) ∧ isComment (lead ++ (word ++ rest)) = false := by
  have hw : nl ∉ word := by
    intro hx
    have := h2 _ hx
    revert this
    decide
  have hd : (lead ++ (word ++ rest)).head? ≠ some 99 ∧ (lead ++ (word ++ rest)).head? ≠ some 101 ∧
      (lead ++ (word ++ rest)).head? ≠ some 35 := by
    cases lead with
    | nil =>
      cases word with
      | nil => exact absurd rfl h2'
      | cons b word =>
        refine ⟨hc, he, ?_⟩
        simp only [List.nil_append, List.cons_append, List.head?_cons, ne_eq, Option.some.injEq]
        rintro rfl
        have := h2 35 (by simp)
        revert this
        decide
    | cons b lead =>
      have all : ∀ b ∈ whiteSpace, b ≠ 99 ∧ b ≠ 101 ∧ b ≠ 35 := by decide
      simpa using all b (h1 b (by simp))
  have pre : ∀ (b : UInt8) (p : Bytes), (lead ++ (word ++ rest)).head? ≠ some b → ¬ (b :: p) <+: lead ++ (word ++ rest) := by
    rintro b p hh ⟨y, hy⟩
    rw [← hy] at hh
    exact hh rfl
  refine ⟨⟨?_, pre _ _ hd.1, pre _ _ hd.2.1, .inr (hs.append lead).ends⟩, ?_⟩
  · simp only [List.mem_append, not_or]
    exact ⟨blank_nl h1, hw, hr⟩
  · unfold isComment
    rw [beq_eq_false_iff_ne]
    exact hd.2.2

theorem part_lines_plain {p : Part} (hp : p.WF) : ∀ l ∈ p.lines, PlainLine l ∧ isComment l = false := by
  cases p with
  | plain s =>
    intro l hl
    exact file_lines_plain (f := [s]) (by simpa using (show s.WF from hp)) l (by simpa [fileLines] using (show l ∈ s.lines from hl))
  | collate c =>
    obtain ⟨w1, w2, w3, w4, w5, w6, -, w8⟩ := hp
    intro l hl
    simp only [Part.lines, Collate.lines, List.mem_append, List.mem_flatMap] at hl
    rcases hl with hl | hl | ⟨x, hx, hl⟩ | hl | hl <;> refine ends_plain ?_ hl
    · exact ⟨⟨by decide, by decide, by decide, .inr (Solid.ends ⟨b!"LC_COLLAT", 69, rfl, by decide, by decide⟩)⟩, rfl⟩
    · have hword : Solid b!"order_start" := ⟨b!"order_star", 116, rfl, by decide, by decide⟩
      unfold Collate.startLine
      refine start_plain w1 (by decide) (by decide) ?_ ?_ (by decide) (by decide)
      · simp only [List.mem_append, not_or]
        refine ⟨blank_nl w2, ?_⟩
        unfold Collate.dirText
        split
        · simp
        · rename_i d _
          simp only [List.mem_append, not_or]
          exact ⟨by cases d <;> decide, blank_nl w3⟩
      · unfold Collate.dirText
        split
        · rw [List.append_nil]
          by_cases hg : c.gap = []
          · rw [hg, List.append_nil]; exact hword
          · exact (blank_solid w2 hg).append _
        · rename_i d _
          have hd : Solid d.word := by
            cases d
            · exact ⟨b!"forwar", 100, rfl, by decide, by decide⟩
            · exact ⟨b!"backwar", 100, rfl, by decide, by decide⟩
            · exact ⟨b!"positio", 110, rfl, by decide, by decide⟩
          by_cases hg : c.trail = []
          · rw [hg, List.append_nil, ← List.append_assoc]; exact hd.append _
          · have := (blank_solid w3 hg).append (b!"order_start" ++ (c.gap ++ d.word))
            simpa using this
    · refine ⟨⟨name_nl (w8 x hx), ?_, ?_, .inr (Solid.ends ⟨60 :: x.1, 62, rfl, by decide, by decide⟩)⟩, rfl⟩
      · rintro ⟨y, hy⟩; cases hy
      · rintro ⟨y, hy⟩; cases hy
    · exact ⟨⟨by decide, by decide, by decide, .inr (Solid.ends ⟨b!"order_en", 100, rfl, by decide, by decide⟩)⟩, rfl⟩
    · refine start_plain (word := b!"END") w4 (by decide) (by decide) ?_ ?_ (by decide) (by decide)
      · simp only [List.mem_append, not_or]
        exact ⟨blank_nl w5, by decide⟩
      · exact (Solid.append ⟨b!"LC_COLLAT", 69, rfl, by decide, by decide⟩ c.endGap).append _

/-! ## The whole way -/

theorem parts_whole (f : List Part) (hf : ∀ p ∈ f, p.WF) (rest : Bytes) (hr : Foreign rest) (input : Bytes)
    (hin : removeComments input = .ok (f.flatMap Part.text ++ rest, 92)) :
    ∃ N, ∀ n, N ≤ n → ∃ l, newLexer n input = .ok (f.flatMap Part.toks) l := by
  refine ⟨(f.map Part.size).sum + (f.map Part.rounds).sum + 1, fun n hn => ?_⟩
  have hsz : ∀ p ∈ f, p.size ≤ n := by
    intro p hp
    have := mem_sum_le (xs := f.map Part.size) (List.mem_map.mpr ⟨p, hp, rfl⟩)
    omega
  obtain ⟨k, rfl⟩ : ∃ k, n = (f.map Part.rounds).sum + (k + 1) := ⟨n - (f.map Part.rounds).sum - 1, by omega⟩
  obtain ⟨l, h1, h2⟩ := parts_lex f hf _ hsz hr (k := k) (pre := []) (t := []) (l := { source := f.flatMap Part.text ++ rest })
    ⟨rfl, rfl, rfl, rfl⟩
  refine ⟨l, ?_⟩
  unfold newLexer
  rw [hin]
  simp only [lexText]
  rw [h1]
  simp only [h2, List.nil_append, visible_parts]

/-- The section with one more blank line at its end. -/
def Part.more : Part → Part
  | .plain s => .plain { s with endAfter := s.endAfter.more }
  | .collate c => .collate { c with endAfter := c.endAfter.more }

theorem more_text (p : Part) : p.more.text = p.text ++ [nl] := by
  cases p <;> simp [Part.more, Part.text, Section.text, Section.endLine, Collate.text, Collate.startLine, Collate.dirText,
    Collate.endLine, lineEnd_more]

/-- **C78.** A locale file: sections of all six kinds one after the other, with comment lines anywhere and a line end at the
end. The lexer finishes, the parser accepts, and what is defined is what the statements say, later ones overriding
earlier ones; collating sections define nothing. -/
theorem C78_collate (f : List Part) (hne : f ≠ []) (hf : ∀ p ∈ f, p.WF) (ha : ∀ p ∈ f, p.Accepted)
    (lines : List Bytes) (hc : ∀ l ∈ lines, isComment l = true → PlainLine l)
    (hl : lines.filter (fun l => !isComment l) = f.flatMap Part.lines) (handler : Bool) (d : Def) :
    ∃ N, ∀ n, N ≤ n → ∃ toks l, newLexer n (unlines lines) = .ok toks l ∧
      parse handler toks d = .ok (0, f.foldl Part.defines d) := by
  have hall : ∀ l ∈ lines, PlainLine l := by
    intro l hm
    by_cases hcl : isComment l = true
    · exact hc l hm hcl
    · have : l ∈ f.flatMap Part.lines := by rw [← hl]; simp [hm, hcl]
      obtain ⟨p, hp, hlp⟩ := List.mem_flatMap.mp this
      exact (part_lines_plain (hf p hp) l hlp).1
  have hst := strip_comments lines hall
  rw [hl, ← parts_text_lines] at hst
  obtain ⟨g, s, rfl⟩ : ∃ g s, f = g ++ [s] := ⟨f.dropLast, f.getLast hne, (List.dropLast_concat_getLast hne).symm⟩
  have e : (g ++ [s]).flatMap Part.text ++ [nl] = (g ++ [s.more]).flatMap Part.text ++ [] := by
    simp [more_text]
  rw [e] at hst
  have hs := hf s (by simp)
  have has := ha s (by simp)
  have hf' : ∀ x ∈ g ++ [s.more], x.WF := by
    intro x hx
    rcases List.mem_append.mp hx with hx | hx
    · exact hf x (by simp [hx])
    · simp only [List.mem_cons, List.not_mem_nil, or_false] at hx
      subst hx
      cases s <;> exact hs
  have ha' : ∀ x ∈ g ++ [s.more], x.Accepted := by
    intro x hx
    rcases List.mem_append.mp hx with hx | hx
    · exact ha x (by simp [hx])
    · simp only [List.mem_cons, List.not_mem_nil, or_false] at hx
      subst hx
      cases s <;> exact has
  obtain ⟨N, hN⟩ := parts_whole _ hf' [] foreign_nil (unlines lines) hst
  refine ⟨N, fun n hn => ?_⟩
  obtain ⟨l, h1⟩ := hN n hn
  refine ⟨_, l, h1, ?_⟩
  rw [parts_parse _ (by simp) hf' ha']
  cases s <;> simp [List.foldl_append, Part.more, Part.defines, Section.defines]

/-- **C79.** The same with collating sections: what follows the last section is not read. -/
theorem C79_collate (f : List Part) (hne : f ≠ []) (hf : ∀ p ∈ f, p.WF) (ha : ∀ p ∈ f, p.Accepted)
    (lines junk : List Bytes) (hc : ∀ l ∈ lines, isComment l = true ∨ l ∈ junk → PlainLine l)
    (hl : lines.filter (fun l => !isComment l) = f.flatMap Part.lines ++ junk) (hj : Foreign (unlines junk ++ [nl]))
    (handler : Bool) (d : Def) :
    ∃ N, ∀ n, N ≤ n → ∃ toks l, newLexer n (unlines lines) = .ok toks l ∧
      parse handler toks d = .ok (0, f.foldl Part.defines d) := by
  have hall : ∀ l ∈ lines, PlainLine l := by
    intro l hm
    by_cases hcl : isComment l = true
    · exact hc l hm (.inl hcl)
    · have : l ∈ f.flatMap Part.lines ++ junk := by rw [← hl]; simp [hm, hcl]
      rcases List.mem_append.mp this with h | h
      · obtain ⟨p, hp, hlp⟩ := List.mem_flatMap.mp h
        exact (part_lines_plain (hf p hp) l hlp).1
      · exact hc l hm (.inr h)
  have hst := strip_comments lines hall
  rw [hl, unlines_append, ← parts_text_lines, List.append_assoc] at hst
  obtain ⟨N, hN⟩ := parts_whole _ hf _ hj (unlines lines) hst
  refine ⟨N, fun n hn => ?_⟩
  obtain ⟨l, h1⟩ := hN n hn
  exact ⟨_, l, h1, parts_parse _ hne hf ha handler d⟩

/-! ## The hypotheses can be met -/

/-- A file with a collating section. -/
def sampleParts : List Part := [
  .collate { lead := b!" ", gap := b!" ", dir := some .forward, names := [(b!"a", 0), (b!"LOW-VALUE", 1)] },
  .plain { cat := .monetary, stmts := [{ word := b!"mon_grouping", val := .ints [3] }] }]

example : ∃ N, ∀ n, N ≤ n → ∃ toks l,
    newLexer n (b!"LC_COLLATE\n order_start forward\n#x\n<a>\n<LOW-VALUE>\n\norder_end\nEND LC_COLLATE\n" ++
      b!"LC_MONETARY\nmon_grouping 3\nEND LC_MONETARY\n") = .ok toks l ∧
    parse false toks {} = .ok (0, { monGrouping := [3] }) := by
  refine C78_collate sampleParts (by simp [sampleParts]) ?_ ?_
    [b!"LC_COLLATE", b!" order_start forward", b!"#x", b!"<a>", b!"<LOW-VALUE>", [], b!"order_end", b!"END LC_COLLATE",
      b!"LC_MONETARY", b!"mon_grouping 3", b!"END LC_MONETARY"] ?_ (by decide +kernel) false {}
  · intro p hp
    simp only [sampleParts, List.mem_cons, List.not_mem_nil, or_false] at hp
    rcases hp with rfl | rfl
    · exact ⟨by decide, by decide, by decide, by decide, by decide, by decide, by decide, by decide⟩
    · refine ⟨?_, by decide, by decide, by decide, by decide⟩
      intro x hx
      simp only [List.mem_cons, List.not_mem_nil, or_false] at hx
      subst hx
      exact ⟨by decide, by decide, by decide, by decide, by simp [Val.WF]⟩
  · intro p hp
    simp only [sampleParts, List.mem_cons, List.not_mem_nil, or_false] at hp
    rcases hp with rfl | rfl
    · exact List.cons_ne_nil _ _
    · refine ⟨by simp, ?_⟩
      intro x hx
      simp only [List.mem_cons, List.not_mem_nil, or_false] at hx
      subst hx
      refine ⟨by decide, ?_⟩
      intro i hi
      simp only [List.mem_cons, List.not_mem_nil, or_false] at hi
      subst hi
      unfold FitsInt; omega
  · intro l hl hc
    simp only [List.mem_cons, List.not_mem_nil, or_false] at hl
    rcases hl with rfl | rfl | rfl | rfl | rfl | rfl | rfl | rfl | rfl | rfl | rfl <;> try (cases hc; done)
    exact ⟨by decide, by decide, by decide, .inr (Solid.ends ⟨b!"#", 120, rfl, by decide, by decide⟩)⟩

end Locale
