import Verif.Locale.LexerLemmas
import Verif.Locale.ParserMeaning
import Verif.Go.StrconvProps

/-!
# Locale files: what a user writes

A small description of locale files (specification for C56 and C78) with the text and the tokens they stand for, and
the proof that the lexer finds these tokens.
-/

namespace Locale
open Go

/-! ## Specification -/

/-- The value in a statement. -/
inductive Val where
  /-- `<a>;<b>`: names of characters -/
  | chars (names : List Bytes)
  /-- `(<a>,<A>);(<b>,<B>)` -/
  | pairs (ps : List (Bytes × Bytes))
  /-- `"a";"b"` -/
  | strs (ss : List (List Nat))
  /-- `"a"` -/
  | str (s : List Nat)
  /-- `3` -/
  | int (i : Int)
  /-- `3;3` -/
  | ints (is : List Int)
  /-- `"^[yY]"` -/
  | msg (s : List Nat)
  deriving DecidableEq, Repr

/-- `<name>` -/
def charText (x : Bytes) : Bytes := 60 :: (x ++ [62])

/-- `(<x>,<y>)` -/
def pairText (p : Bytes × Bytes) : Bytes := 40 :: (charText p.1 ++ 44 :: (charText p.2 ++ [41]))

/-- How a value is written. -/
def Val.text : Val → Bytes
  | .chars ns => semiText (ns.map charText)
  | .pairs ps => semiText (ps.map pairText)
  | .strs ss => semiText (ss.map strText)
  | .str s => strText s
  | .int i => itoa i
  | .ints is => semiText (is.map itoa)
  | .msg s => strText s

/-- The tokens of a pair. -/
def pairToks (p : Bytes × Bytes) : List Tok :=
  [⟨Tm.LPAREN.code, b!"("⟩, ⟨Tm.CHARSYMBOL.code, charText p.1⟩, ⟨Tm.COMMA.code, b!","⟩,
    ⟨Tm.CHARSYMBOL.code, charText p.2⟩, ⟨Tm.RPAREN.code, b!")"⟩]

/-- The tokens of a value. -/
def Val.toks : Val → List Tok
  | .chars ns => semiToks (ns.map fun x => [⟨Tm.CHARSYMBOL.code, charText x⟩])
  | .pairs ps => semiToks (ps.map pairToks)
  | .strs ss => semiToks (ss.map strToks)
  | .str s => strToks s
  | .int i => [⟨Tm.NUMBER.code, itoa i⟩]
  | .ints is => semiToks (is.map fun i => [⟨Tm.NUMBER.code, itoa i⟩])
  | .msg s => [⟨Tm.DQUOTE.code, b!"\""⟩, ⟨Tm.EXTENDED_REG_EXP.code, ofRunes s⟩, ⟨Tm.DQUOTE.code, b!"\""⟩]

/-- A value that can be written: names of letters, digits, `-` and `_`; strings without line ends
and with the escapes the lexer knows; lists with something in them. -/
def Val.WF : Val → Prop
  | .chars ns => ns ≠ [] ∧ ∀ x ∈ ns, ∀ b ∈ x, b ∈ nameChars
  | .pairs ps => ps ≠ [] ∧ ∀ p ∈ ps, (∀ b ∈ p.1, b ∈ nameChars) ∧ ∀ b ∈ p.2, b ∈ nameChars
  | .strs ss => ss ≠ [] ∧ ∀ s ∈ ss, strOk s = true
  | .str s => strOk s = true
  | .int _ => True
  | .ints is => is ≠ []
  | .msg s => ∀ r ∈ s, ValidRune r ∧ r ≠ 34 ∧ r ≠ 10

/-- Which kind of value it is. -/
def Val.grab : Val → Grab
  | .chars _ => .charList
  | .pairs _ => .charPairList
  | .strs _ => .stringList
  | .str _ => .string
  | .int _ => .int
  | .ints _ => .intList
  | .msg _ => .msg

/-- The end of a line and the blank lines after it. Each of these line ends may have carriage returns before the newline, as
files from DOS have; the numbers count them. -/
structure Ends where
  first : Nat := 0
  blank : List Nat := []
  deriving DecidableEq, Repr

/-- The number of blank lines, when there are no carriage returns. -/
instance (n : Nat) : OfNat Ends n := ⟨⟨0, List.replicate n 0⟩⟩

/-- Carriage returns. -/
def crs (j : Nat) : Bytes := List.replicate j 13

/-- One more blank line. -/
def Ends.more (k : Ends) : Ends := ⟨k.first, k.blank ++ [0]⟩

/-- A statement: blanks, a keyword, blanks, a value, the line end and blank lines after it. -/
structure Stmt where
  lead : Bytes := []
  word : Bytes
  gap : Bytes := b!" "
  val : Val
  after : Ends := 0
  deriving DecidableEq, Repr

/-- The keywords of a category and the kind of value each takes. -/
def Cat.keywords : Cat → List (Bytes × Grab)
  | .ctype =>
    [b!"upper", b!"lower", b!"alpha", b!"digit", b!"alnum", b!"space", b!"cntrl", b!"punct", b!"graph", b!"print", b!"xdigit",
      b!"blank"].map (·, .charList) ++ [b!"toupper", b!"tolower"].map (·, .charPairList) ++ [(b!"charclass", .stringList)]
  | .monetary =>
    [b!"int_curr_symbol", b!"currency_symbol", b!"mon_decimal_point", b!"mon_thousands_sep", b!"positive_sign",
      b!"negative_sign"].map (·, .string) ++ [(b!"mon_grouping", .intList)] ++
    [b!"int_frac_digits", b!"frac_digits", b!"p_cs_precedes", b!"p_sep_by_space", b!"n_cs_precedes", b!"n_sep_by_space",
      b!"p_sign_posn", b!"n_sign_posn", b!"int_p_cs_precedes", b!"int_p_sep_by_space", b!"int_n_cs_precedes",
      b!"int_n_sep_by_space", b!"int_p_sign_posn", b!"int_n_sign_posn"].map (·, .int)
  | .numeric => [b!"decimal_point", b!"thousands_sep"].map (·, .string) ++ [(b!"grouping", .int)]
  | .time =>
    [b!"abday", b!"day", b!"abmon", b!"mon", b!"am_pm", b!"era", b!"alt_digits"].map (·, .stringList) ++
    [b!"d_t_fmt", b!"d_fmt", b!"t_fmt", b!"t_fmt_ampm", b!"era_d_fmt", b!"era_t_fmt", b!"era_d_t_fmt"].map (·, .string)
  | .messages => [b!"yesexpr", b!"noexpr"].map (·, .msg)

/-- The token of a statement: the one its keyword has in the tables. -/
def Stmt.tm (s : Stmt) : Tm :=
  match (ctypeMap ++ monetaryMap ++ numericMap ++ timeMap ++ msgMap).find? (fun e => e.1 == s.word) with
  | some e => e.2.1
  | none => .EOL

/-- A section: header, statements and end. -/
structure Section where
  cat : Cat
  after : Ends := 0
  stmts : List Stmt
  endLead : Bytes := []
  endGap : Bytes := b!" "
  endTrail : Bytes := []
  endAfter : Ends := 0
  deriving DecidableEq, Repr

/-- A line and blank lines after it. -/
def lineEnd (k : Ends) : Bytes := crs k.first ++ nl :: k.blank.flatMap fun j => crs j ++ [nl]

/-- The lines that a line with its line ends consists of. -/
def withEnds (l : Bytes) (k : Ends) : List Bytes := (l ++ crs k.first) :: k.blank.map crs

/-- How a statement is written, without the line end. -/
def Stmt.line (s : Stmt) : Bytes := s.lead ++ (s.word ++ (s.gap ++ s.val.text))

/-- How a statement is written. -/
def Stmt.text (s : Stmt) : Bytes := s.line ++ lineEnd s.after

/-- The last line of a section, without the line end. -/
def Section.endLine (s : Section) : Bytes := s.endLead ++ (b!"END" ++ (s.endGap ++ (s.cat.name ++ s.endTrail)))

/-- How a section is written. -/
def Section.text (s : Section) : Bytes :=
  s.cat.name ++ (lineEnd s.after ++ (s.stmts.flatMap Stmt.text ++ (s.endLine ++ lineEnd s.endAfter)))

/-- The end of line token. -/
def eolTok (k : Ends) : Tok := ⟨Tm.EOL.code, lineEnd k⟩

/-- The tokens of a statement. -/
def Stmt.toks (s : Stmt) : List Tok := ⟨s.tm.code, s.word⟩ :: (s.val.toks ++ [eolTok s.after])

/-- The tokens of a section. -/
def Section.toks (s : Section) : List Tok :=
  ⟨s.cat.tm.code, s.cat.name⟩ :: eolTok s.after :: (s.stmts.flatMap Stmt.toks ++
    [⟨Tm.END_STR.code, b!"END"⟩, ⟨s.cat.tm.code, s.cat.name⟩, eolTok s.endAfter])

/-- The statement belongs to the category and can be written. -/
def Stmt.WF (c : Cat) (s : Stmt) : Prop :=
  Blank s.lead ∧ (s.word, s.val.grab) ∈ c.keywords ∧ Blank s.gap ∧ s.gap ≠ [] ∧ s.val.WF

/-- The section can be written. -/
def Section.WF (s : Section) : Prop :=
  (∀ x ∈ s.stmts, x.WF s.cat) ∧ Blank s.endLead ∧ Blank s.endGap ∧ s.endGap ≠ [] ∧ Blank s.endTrail

theorem keywords_table (c : Cat) : (c.keywords.all fun e => c.map.any fun m => decide (m.1 = e.1 ∧ m.2.2 = e.2 ∧
    ((ctypeMap ++ monetaryMap ++ numericMap ++ timeMap ++ msgMap).find? fun x => x.1 == e.1) = some m)) = true := by
  cases c <;> decide +kernel

theorem Stmt.WF.mem {c : Cat} {s : Stmt} (h : s.WF c) : (s.word, s.tm, s.val.grab) ∈ c.map := by
  have := List.all_eq_true.mp (keywords_table c) _ h.2.1
  simp only [List.any_eq_true, decide_eq_true_eq] at this
  obtain ⟨m, hm, h1, h2, h3⟩ := this
  have : s.tm = m.2.1 := by unfold Stmt.tm; rw [h3]
  rw [this, ← h1, ← h2]
  exact hm

/-! ## The lexer reads values -/

/-- Enough rounds for the loops that read a value. -/
def Val.size : Val → Nat
  | .chars ns => ns.length
  | .pairs ps => ps.length
  | .strs ss => ss.length + (ss.map List.length).sum + 1
  | .str s => s.length + 1
  | .int _ => 0
  | .ints is => is.length
  | .msg s => s.length + 1

theorem mem_sum_le {xs : List Nat} {x : Nat} (h : x ∈ xs) : x ≤ xs.sum := by
  induction xs with
  | nil => cases h
  | cons y ys ih =>
    rcases List.mem_cons.mp h with rfl | h
    · simp
    · have := ih h; simp; omega

theorem itoa_spec (i : Int) : (∀ b ∈ itoa i, b ∈ b!"-1234567890") ∧ itoa i ≠ [] ∧ itoa i ≠ b!"-" ∧ 45 ∉ (itoa i).drop 1 := by
  have hd : ∀ b : UInt8, isDigit b = true → b ∈ b!"-1234567890" ∧ b ≠ 45 := by
    intro b hb
    rw [isDigit_iff] at hb
    have : ∀ n : Nat, n < 58 → 48 ≤ n → UInt8.ofNat n ∈ b!"-1234567890" ∧ UInt8.ofNat n ≠ 45 := by decide
    have := this b.toNat (by omega) (by omega)
    rwa [UInt8.ofNat_toNat] at this
  unfold itoa
  split
  · obtain ⟨h2, h1, -⟩ := natToDec_spec i.natAbs
    refine ⟨?_, by simp, ?_, ?_⟩
    · intro b hb
      rcases List.mem_cons.mp hb with rfl | hb
      · decide
      · exact (hd b (h1 b hb)).1
    · intro e
      simp only [List.cons.injEq, true_and] at e
      exact h2 e
    · intro hb
      exact (hd 45 (h1 45 (by simpa using hb))).2 rfl
  · obtain ⟨h2, h1, -⟩ := natToDec_spec i.toNat
    refine ⟨fun b hb => (hd b (h1 b hb)).1, h2, ?_, ?_⟩
    · intro e
      exact (hd 45 (h1 45 (by rw [e]; simp))).2 rfl
    · intro hb
      exact (hd 45 (h1 45 (List.mem_of_mem_drop hb))).2 rfl

theorem nl_stops (cs rest : Bytes) (h : cs.contains nl = false) : Stops cs (nl :: rest) := ⟨by simp only [nl]; decide, h⟩

theorem val_lex {v : Val} (hv : v.WF) {n : Nat} (hn : v.size ≤ n) {pre rest t l} (hs1 : Stops b!";" rest)
    (hs2 : Stops b!"-1234567890" rest) (h : Pos pre [] (v.text ++ rest) t l) :
    Runs (v.grab.run backslash n) l true (Pos (pre ++ v.text) [] rest (t ++ v.toks)) := by
  cases v with
  | chars ns =>
    have := grabList_spec (g := grabChar) (stop := fun _ => True) (fun _ => trivial)
      (ns.map fun x => (charText x, [⟨Tm.CHARSYMBOL.code, charText x⟩]))
      (by
        intro i hi pre rest t l _ h
        obtain ⟨x, hx, rfl⟩ := List.mem_map.mp hi
        exact grabChar_spec (hv.2 x hx) (by simpa [charText] using h))
      (n := n) (by simpa [Val.size] using hn) (by simpa using hv.1) trivial hs1 false
      (by simp only [List.map_map, Function.comp_def]; exact h)
    simp only [List.map_map, Function.comp_def] at this
    exact this
  | pairs ps =>
    have := grabList_spec (g := grabCharPair) (stop := fun _ => True) (fun _ => trivial)
      (ps.map fun x => (pairText x, pairToks x))
      (by
        intro i hi pre rest t l _ h
        obtain ⟨x, hx, rfl⟩ := List.mem_map.mp hi
        obtain ⟨h1, h2⟩ := hv.2 x hx
        have := grabCharPair_spec (rest := rest) h1 h2 (by simpa [pairText, charText] using h)
        simpa [pairText, charText, pairToks] using this)
      (n := n) (by simpa [Val.size] using hn) (by simpa using hv.1) trivial hs1 false
      (by simp only [List.map_map, Function.comp_def]; exact h)
    simp only [List.map_map, Function.comp_def] at this
    exact this
  | strs ss =>
    have hsz : ss.length + (ss.map List.length).sum + 1 ≤ n := hn
    have := grabList_spec (g := grabString backslash n) (stop := fun _ => True) (fun _ => trivial)
      (ss.map fun x => (strText x, strToks x))
      (by
        intro i hi pre rest t l _ h
        obtain ⟨x, hx, rfl⟩ := List.mem_map.mp hi
        have hlen : x.length ≤ (ss.map List.length).sum := mem_sum_le (List.mem_map.mpr ⟨x, hx, rfl⟩)
        exact grabString_spec (by omega) (hv.2 x hx) h)
      (n := n) (by simp; omega) (by simpa using hv.1) trivial hs1 false
      (by simp only [List.map_map, Function.comp_def]; exact h)
    simp only [List.map_map, Function.comp_def] at this
    exact this
  | str s => exact grabString_spec (Nat.lt_of_succ_le hn) hv h
  | int i =>
    obtain ⟨h1, h2, h3, h4⟩ := itoa_spec i
    exact grabInt_spec h1 h2 h3 h4 hs2 h
  | ints is =>
    have := grabList_spec (g := grabInt) (stop := Stops b!"-1234567890") (fun _ => ⟨by decide, rfl⟩)
      (is.map fun i => (itoa i, [⟨Tm.NUMBER.code, itoa i⟩]))
      (by
        intro i hi pre rest t l hst h
        obtain ⟨x, hx, rfl⟩ := List.mem_map.mp hi
        obtain ⟨h1, h2, h3, h4⟩ := itoa_spec x
        exact grabInt_spec h1 h2 h3 h4 hst h)
      (n := n) (by simpa [Val.size] using hn) (by simpa [Val.WF] using hv) hs2 hs1 false
      (by simp only [List.map_map, Function.comp_def]; exact h)
    simp only [List.map_map, Function.comp_def] at this
    exact this
  | msg s =>
    exact grabMsg_spec (Nat.lt_of_succ_le hn) (fun r hr => ⟨(hv r hr).1, (hv r hr).2.1⟩) h

/-! ## The lexer reads sections -/

/-- The characters of words. -/
def wordChars : Bytes := upperChars ++ lowerChars ++ b!"_"

theorem wordChars_ascii : ∀ b ∈ wordChars, b.toNat < 0x80 := by decide
theorem upperChars_ascii : ∀ b ∈ upperChars, b.toNat < 0x80 := by decide
theorem headChars_ascii : ∀ b ∈ upperChars ++ b!"_", b.toNat < 0x80 := by decide

/-- A text that starts with a letter. -/
def Lettered : Bytes → Prop
  | [] => False
  | b :: _ => b ∈ wordChars

theorem Lettered.append {x y : Bytes} (h : Lettered x) : Lettered (x ++ y) := by
  cases x with
  | nil => cases h
  | cons b x => exact h

theorem lettered_stops {x : Bytes} (h : Lettered x) : Stops whiteSpace x ∧ Stops newLine x := by
  cases x with
  | nil => cases h
  | cons b x =>
    have : ∀ b ∈ wordChars, b.toNat < 0x80 ∧ whiteSpace.contains b = false ∧ newLine.contains b = false := by decide
    obtain ⟨h1, h2, h3⟩ := this b h
    exact ⟨⟨h1, h2⟩, ⟨h1, h3⟩⟩

theorem blank_stops {x y : Bytes} (h : Blank x) (hne : x ≠ []) (cs : Bytes)
    (hcs : cs.contains 32 = false ∧ cs.contains 9 = false) : Stops cs (x ++ y) := by
  cases x with
  | nil => exact absurd rfl hne
  | cons b x =>
    have hb := h b (by simp)
    simp only [whiteSpace, List.mem_cons, List.not_mem_nil, or_false] at hb
    rcases hb with rfl | rfl
    · exact ⟨by decide, hcs.1⟩
    · exact ⟨by decide, hcs.2⟩

theorem lead_stops {x y : Bytes} (h : Blank x) (hy : Lettered y) : Stops newLine (x ++ y) := by
  by_cases hne : x = []
  · subst hne; exact (lettered_stops hy).2
  · exact blank_stops h hne _ (by decide)

theorem map_ok (c : Cat) : (c.map.all fun e =>
    decide ((∀ b ∈ e.1, b ∈ wordChars) ∧ e.1 ≠ b!"END" ∧ e.1 ≠ [] ∧ c.map.find? (fun x => x.1 == e.1) = some e)) = true := by
  cases c <;> decide +kernel

theorem lettered_of_word {w : Bytes} (h1 : ∀ b ∈ w, b ∈ wordChars) (h2 : w ≠ []) : Lettered w := by
  cases w with
  | nil => exact absurd rfl h2
  | cons b w => exact h1 b (by simp)

/-- The tokens the lexer sends for a statement, blanks included. -/
def Stmt.sent (s : Stmt) : List Tok :=
  wsTok s.lead ++ (⟨s.tm.code, s.word⟩ :: (wsTok s.gap ++ (s.val.toks ++ [eolTok s.after])))

theorem val_starts {v : Val} (h5 : v.WF) (x : Bytes) : Stops whiteSpace (v.text ++ x) := by
  have hvt : ∃ b0 v', v.text = b0 :: v' ∧ b0.toNat < 0x80 ∧ whiteSpace.contains b0 = false := by
    have semi : ∀ (xs : List Bytes), xs ≠ [] → (∀ x ∈ xs, ∃ b0 v', x = b0 :: v' ∧ b0.toNat < 0x80 ∧ whiteSpace.contains b0 = false) →
        ∃ b0 v', semiText xs = b0 :: v' ∧ b0.toNat < 0x80 ∧ whiteSpace.contains b0 = false := by
      intro xs hne hx
      cases xs with
      | nil => exact absurd rfl hne
      | cons x xs =>
        obtain ⟨b0, v', e, q⟩ := hx x (by simp)
        cases xs with
        | nil => exact ⟨b0, v', e, q⟩
        | cons y ys => exact ⟨b0, v' ++ 59 :: semiText (y :: ys), by simp [semiText, e], q⟩
    have itoa_head : ∀ i, ∃ b0 v', itoa i = b0 :: v' ∧ b0.toNat < 0x80 ∧ whiteSpace.contains b0 = false := by
      intro i
      obtain ⟨q1, q2, -⟩ := itoa_spec i
      cases hi : itoa i with
      | nil => exact absurd hi q2
      | cons b0 v' =>
        have := q1 b0 (by rw [hi]; simp)
        have all : ∀ b ∈ b!"-1234567890", b.toNat < 0x80 ∧ whiteSpace.contains b = false := by decide
        exact ⟨b0, v', rfl, all b0 this⟩
    cases hv : v with
    | chars ns =>
      rw [hv] at h5
      exact semi _ (by simpa using h5.1) (by
        intro x hx
        obtain ⟨y, -, rfl⟩ := List.mem_map.mp hx
        exact ⟨_, _, rfl, by decide, by decide⟩)
    | pairs ps =>
      rw [hv] at h5
      exact semi _ (by simpa using h5.1) (by
        intro x hx
        obtain ⟨y, -, rfl⟩ := List.mem_map.mp hx
        exact ⟨_, _, rfl, by decide, by decide⟩)
    | strs ss =>
      rw [hv] at h5
      exact semi _ (by simpa using h5.1) (by
        intro x hx
        obtain ⟨y, -, rfl⟩ := List.mem_map.mp hx
        exact ⟨_, _, rfl, by decide, by decide⟩)
    | str s => exact ⟨_, _, rfl, by decide, by decide⟩
    | int i => exact itoa_head i
    | ints is =>
      rw [hv] at h5
      exact semi _ (by simpa [Val.WF] using h5) (by
        intro x hx
        obtain ⟨y, -, rfl⟩ := List.mem_map.mp hx
        exact itoa_head y)
    | msg s => exact ⟨_, _, rfl, by decide, by decide⟩
  obtain ⟨b0, v', e, q1, q2⟩ := hvt
  rw [e]
  exact ⟨q1, q2⟩

theorem lineEnd_head (k : Ends) : ∃ b bs, lineEnd k = b :: bs ∧ (b = nl ∨ b = 13) := by
  obtain ⟨f, bl⟩ := k
  cases f with
  | zero => exact ⟨_, _, rfl, .inl rfl⟩
  | succ f => exact ⟨_, _, rfl, .inr rfl⟩

theorem lineEnd_ne (k : Ends) : lineEnd k ≠ [] := by
  obtain ⟨b, bs, e, -⟩ := lineEnd_head k
  rw [e]; simp

theorem lineEnd_mem (k : Ends) : ∀ b ∈ lineEnd k, b ∈ newLine := by
  intro b hb
  have h1 : b = nl ∨ b = 13 := by
    simp only [lineEnd, crs, List.mem_append, List.mem_cons, List.mem_flatMap, List.mem_replicate, List.not_mem_nil, or_false] at hb
    grind
  rcases h1 with rfl | rfl <;> decide

theorem lineEnd_stops (k : Ends) (rest : Bytes) (cs : Bytes) (h : (cs.contains nl || cs.contains 13) = false) :
    Stops cs (lineEnd k ++ rest) := by
  obtain ⟨b, bs, e, hb⟩ := lineEnd_head k
  rw [e]
  simp only [Bool.or_eq_false_iff] at h
  rcases hb with rfl | rfl
  · exact ⟨by simp only [nl]; decide, h.1⟩
  · exact ⟨by decide, h.2⟩

theorem grabEnds_spec {k : Ends} {pre rest t l} (hs : Stops newLine rest) (h : Pos pre [] (lineEnd k ++ rest) t l) :
    Runs grabNewline l true (Pos (pre ++ lineEnd k) [] rest (t ++ [⟨Tm.EOL.code, lineEnd k⟩])) :=
  grabNewline_spec (lineEnd_mem k) (lineEnd_ne k) hs h

theorem stmt_lex {c : Cat} {s : Stmt} (hs : s.WF c) {n : Nat} (hn : s.val.size ≤ n) {pre rest t l}
    (hrest : Stops newLine rest) (h : Pos pre [] (s.text ++ rest) t l) :
    Runs (sGeneric backslash n c) l (some (.generic c)) (Pos (pre ++ s.text) [] rest (t ++ s.sent)) := by
  have hmem := hs.mem
  obtain ⟨h1, -, h3, h4, h5⟩ := hs
  have hm := List.all_eq_true.mp (map_ok c) _ hmem
  simp only [decide_eq_true_eq] at hm
  obtain ⟨m1, m2, m3, m4⟩ := hm
  unfold sGeneric
  simp only [Stmt.text, Stmt.line, List.append_assoc] at h
  obtain ⟨b, hb⟩ := grabWhitespace_any h1 (lettered_stops (lettered_of_word m1 m3).append).1 h
  refine hb.bind fun l1 k1 => ?_
  refine (take_spec (chars := wordChars) wordChars_ascii m1 (blank_stops h3 h4 _ (by decide)) k1).bind fun l2 k2 => ?_
  refine (current_spec k2).bind fun l3 k3 => ?_
  simp only [List.nil_append]
  rw [if_neg m2, m4]
  refine (emit_spec k3 _).bind fun l4 k4 => ?_
  have hws := val_starts h5 (lineEnd s.after ++ rest)
  refine (must_spec (grabWhitespace_some h3 h4 hws k4)).bind fun l5 k5 => ?_
  refine (must_spec (val_lex h5 hn (lineEnd_stops _ _ _ (by decide)) (lineEnd_stops _ _ _ (by decide)) k5)).bind fun l6 k6 => ?_
  refine (must_spec (grabEnds_spec hrest k6)).bind fun l7 k7 => ?_
  refine Runs.pure ?_
  simpa [Stmt.text, Stmt.line, Stmt.sent, wsTok, h4, eolTok] using k7

/-- The tokens the lexer sends for the end of a section. -/
def Section.endSent (s : Section) : List Tok :=
  wsTok s.endLead ++ (⟨Tm.END_STR.code, b!"END"⟩ :: (wsTok s.endGap ++ (⟨s.cat.tm.code, s.cat.name⟩ ::
    (wsTok s.endTrail ++ [eolTok s.endAfter]))))

theorem name_ok (c : Cat) : (∀ b ∈ c.name, b ∈ upperChars) ∧ c.name ≠ [] := by cases c <;> decide

theorem end_lex {s : Section} (hs : s.WF) {n : Nat} {pre rest t l} (hrest : Stops newLine rest)
    (h : Pos pre [] (s.endLine ++ lineEnd s.endAfter ++ rest) t l) :
    Runs (sGeneric backslash n s.cat) l (some .category)
      (Pos (pre ++ (s.endLine ++ lineEnd s.endAfter)) [] rest (t ++ s.endSent)) := by
  obtain ⟨-, h1, h2, h3, h4⟩ := hs
  obtain ⟨n1, n2⟩ := name_ok s.cat
  have n3 : ∀ b ∈ s.cat.name, b ∈ wordChars := by
    intro b hb
    have := n1 b hb
    simp [wordChars, this]
  unfold sGeneric
  simp only [Section.endLine, List.append_assoc] at h
  obtain ⟨b, hb⟩ := grabWhitespace_any h1
    (lettered_stops (x := b!"END" ++ (s.endGap ++ (s.cat.name ++ (s.endTrail ++ (lineEnd s.endAfter ++ rest))))) (by
      show (69 : UInt8) ∈ wordChars
      decide)).1 h
  refine hb.bind fun l1 k1 => ?_
  refine (take_spec (chars := wordChars) (x := b!"END") wordChars_ascii (by decide) (blank_stops h2 h3 _ (by decide)) k1).bind fun l2 k2 => ?_
  refine (current_spec k2).bind fun l3 k3 => ?_
  rw [if_pos (by rfl)]
  refine (emit_spec k3 _).bind fun l4 k4 => ?_
  refine (must_spec (grabWhitespace_some h2 h3 (lettered_stops (lettered_of_word n3 n2).append).1 k4)).bind fun l5 k5 => ?_
  have hst : Stops upperChars (s.endTrail ++ (lineEnd s.endAfter ++ rest)) := by
    by_cases he : s.endTrail = []
    · rw [he]
      exact lineEnd_stops _ _ _ (by decide)
    · exact blank_stops h4 he _ (by decide)
  refine (take_spec upperChars_ascii n1 hst k5).bind fun l6 k6 => ?_
  refine (current_spec k6).bind fun l7 k7 => ?_
  rw [if_neg (by simp)]
  refine (emit_spec k7 _).bind fun l8 k8 => ?_
  obtain ⟨b', hb'⟩ := grabWhitespace_any h4 (lineEnd_stops s.endAfter rest whiteSpace (by decide)) k8
  refine hb'.bind fun l9 k9 => ?_
  refine (must_spec (grabEnds_spec hrest k9)).bind fun l10 k10 => ?_
  refine Runs.pure ?_
  simpa [Section.endLine, Section.endSent, wsTok, h3, eolTok] using k10

theorem header_lex {c : Cat} {k : Ends} {pre rest t l} (hrest : Stops newLine rest)
    (h : Pos pre [] (c.name ++ (lineEnd k ++ rest)) t l) :
    Runs sCategory l (some (.generic c))
      (Pos (pre ++ (c.name ++ lineEnd k)) [] rest (t ++ [⟨c.tm.code, c.name⟩, eolTok k])) := by
  unfold sCategory
  obtain ⟨n1, n2⟩ := name_ok c
  refine (take_spec (chars := upperChars ++ b!"_") headChars_ascii (fun b hb => by simp [n1 b hb])
    (lineEnd_stops _ _ _ (by decide)) h).bind fun l1 k1 => ?_
  refine (current_spec k1).bind fun l2 k2 => ?_
  have key : ∀ st : Tm × St, st = (c.tm, St.generic c) → Runs (do
      emit st.1.code
      take whiteSpace
      must grabNewline
      pure (some st.2)) l2 (some (.generic c)) (Pos (pre ++ (c.name ++ lineEnd k)) [] rest (t ++ [⟨c.tm.code, c.name⟩, eolTok k])) := by
    rintro _ rfl
    refine (emit_spec k2 _).bind fun l3 k3 => ?_
    refine (take_spec (x := []) whiteSpace_ascii (by simp) (lineEnd_stops k rest _ (by decide)) k3).bind fun l4 k4 => ?_
    refine (must_spec (grabEnds_spec hrest k4)).bind fun l5 k5 => ?_
    exact Runs.pure (by simpa [eolTok] using k5)
  cases c
  all_goals exact key _ rfl

/-- A text the lexer stops at: a word in capitals, or none at all, that is no header, and not a line end. -/
def Foreign (rest : Bytes) : Prop :=
  ∃ w r, rest = w ++ r ∧ (∀ b ∈ w, b ∈ upperChars) ∧ Stops upperChars r ∧ Stops newLine rest ∧
    w ∉ [b!"LC_CTYPE", b!"LC_COLLATE", b!"LC_MONETARY", b!"LC_NUMERIC", b!"LC_TIME", b!"LC_MESSAGES"]

theorem foreign_nil : Foreign [] := ⟨[], [], rfl, by simp, trivial, trivial, by decide⟩

theorem nothing_lex {rest : Bytes} (hr : Foreign rest) {pre t l} (h : Pos pre [] rest t l) :
    Runs sCategory l none fun l' => l'.toks = t := by
  obtain ⟨w, r, rfl, h1, h2, -, h4⟩ := hr
  unfold sCategory
  have hs : Stops (upperChars ++ b!"_") r := by
    cases r with
    | nil => trivial
    | cons b r =>
      refine ⟨h2.1, ?_⟩
      have := h2.2
      simp only [List.contains_eq_mem, decide_eq_false_iff_not] at this ⊢
      intro hb
      rcases List.mem_append.mp hb with hb | hb
      · exact this hb
      · refine this ?_
        simp only [List.mem_cons, List.not_mem_nil, or_false] at hb
        rw [hb]
        decide
  refine (take_spec (chars := upperChars ++ b!"_") headChars_ascii (fun b hb => by simp [h1 b hb]) hs h).bind fun l1 k1 => ?_
  refine (current_spec k1).bind fun l2 k2 => ?_
  simp only [List.nil_append]
  simp only [List.mem_cons, List.not_mem_nil, or_false, not_or] at h4
  obtain ⟨a1, a2, a3, a4, a5, a6⟩ := h4
  rw [if_neg a1, if_neg a2, if_neg a3, if_neg a4, if_neg a5, if_neg a6]
  exact Runs.pure k2.toks

theorem stmts_lex {c : Cat} {ss : List Stmt} (hs : ∀ s ∈ ss, s.WF c) {n : Nat} (hn : ∀ s ∈ ss, s.val.size ≤ n)
    {k : Nat} {pre rest t l} {Q : L → Prop} (hrest : Stops newLine rest)
    (h : Pos pre [] (ss.flatMap Stmt.text ++ rest) t l)
    (hk : ∀ l', Pos (pre ++ ss.flatMap Stmt.text) [] rest (t ++ ss.flatMap Stmt.sent) l' → Runs (runLoop backslash n k (.generic c)) l' () Q) :
    Runs (runLoop backslash n (ss.length + k) (.generic c)) l () Q := by
  induction ss generalizing pre t l with
  | nil =>
    simp only [List.length_nil, Nat.zero_add]
    exact hk l (by simpa using h)
  | cons s ss ih =>
    rw [show (s :: ss).length + k = (ss.length + k) + 1 by simp; omega]
    simp only [runLoop, St.call]
    simp only [List.flatMap_cons, List.append_assoc] at h
    have hst : Stops newLine (ss.flatMap Stmt.text ++ rest) := by
      cases ss with
      | nil => exact hrest
      | cons s' ss' =>
        have w1 := (hs s' (by simp)).1
        have hm := List.all_eq_true.mp (map_ok c) _ (hs s' (by simp)).mem
        simp only [decide_eq_true_eq] at hm
        simp only [List.flatMap_cons, Stmt.text, Stmt.line, List.append_assoc]
        exact lead_stops w1 (lettered_of_word hm.1 hm.2.2.1).append
    refine (stmt_lex (hs s (by simp)) (hn s (by simp)) hst h).bind fun l1 k1 => ?_
    refine ih (fun x hx => hs x (by simp [hx])) (fun x hx => hn x (by simp [hx])) k1 (fun l' hl' => hk l' ?_)
    simpa using hl'

/-- The tokens the lexer sends for a section. -/
def Section.sent (s : Section) : List Tok :=
  ⟨s.cat.tm.code, s.cat.name⟩ :: eolTok s.after :: (s.stmts.flatMap Stmt.sent ++ s.endSent)

theorem section_lex {s : Section} (hs : s.WF) {n : Nat} (hn : ∀ x ∈ s.stmts, x.val.size ≤ n)
    {k : Nat} {pre rest t l} {Q : L → Prop} (hrest : Stops newLine rest) (h : Pos pre [] (s.text ++ rest) t l)
    (hk : ∀ l', Pos (pre ++ s.text) [] rest (t ++ s.sent) l' → Runs (runLoop backslash n k .category) l' () Q) :
    Runs (runLoop backslash n (s.stmts.length + (k + 1) + 1) .category) l () Q := by
  rw [runLoop]
  simp only [St.call]
  simp only [Section.text, List.append_assoc] at h
  have hend : Stops newLine (s.endLine ++ (lineEnd s.endAfter ++ rest)) := by
    simp only [Section.endLine, List.append_assoc]
    exact lead_stops hs.2.1 (by show (69 : UInt8) ∈ wordChars; decide)
  have hst : Stops newLine (s.stmts.flatMap Stmt.text ++ (s.endLine ++ (lineEnd s.endAfter ++ rest))) := by
    cases hss : s.stmts with
    | nil => exact hend
    | cons s' ss' =>
      have w1 := (hs.1 s' (by simp [hss])).1
      have hm := List.all_eq_true.mp (map_ok s.cat) _ (hs.1 s' (by simp [hss])).mem
      simp only [decide_eq_true_eq] at hm
      simp only [List.flatMap_cons, Stmt.text, Stmt.line, List.append_assoc]
      exact lead_stops w1 (lettered_of_word hm.1 hm.2.2.1).append
  refine (header_lex hst h).bind fun l1 k1 => ?_
  refine stmts_lex hs.1 hn hend k1 fun l2 k2 => ?_
  rw [runLoop]
  simp only [St.call]
  refine (end_lex hs hrest (by simpa using k2)).bind fun l3 k3 => ?_
  refine hk l3 ?_
  simpa [Section.text, Section.sent] using k3

/-- The text of a file. -/
def fileText (f : List Section) : Bytes := f.flatMap Section.text

/-- Rounds enough for a file. -/
def fileSize (f : List Section) : Nat :=
  (f.map fun s => s.stmts.length + 2 + (s.stmts.map fun x => x.val.size).sum).sum + 1

/-- Rounds of the main loop for a file. -/
def fileRounds (f : List Section) : Nat := (f.map fun s => s.stmts.length + 2).sum

theorem file_lex (f : List Section) (hf : ∀ s ∈ f, s.WF) (n : Nat) (hn : ∀ s ∈ f, ∀ x ∈ s.stmts, x.val.size ≤ n)
    {rest : Bytes} (hr : Foreign rest) {k pre t l} (h : Pos pre [] (fileText f ++ rest) t l) :
    Runs (runLoop backslash n (fileRounds f + (k + 1)) .category) l () fun l' => l'.toks = t ++ f.flatMap Section.sent := by
  induction f generalizing pre t l with
  | nil =>
    simp only [fileRounds, List.map_nil, List.sum_nil, Nat.zero_add, runLoop, St.call]
    refine (nothing_lex hr h).bind fun l1 k1 => ?_
    exact Runs.pure (by simpa [fileText] using k1)
  | cons s f ih =>
    have e : fileRounds (s :: f) + (k + 1) = s.stmts.length + ((fileRounds f + (k + 1)) + 1) + 1 := by
      simp [fileRounds]; omega
    rw [e]
    simp only [fileText, List.flatMap_cons, List.append_assoc] at h
    have hst : Stops newLine (fileText f ++ rest) := by
      cases f with
      | nil =>
        obtain ⟨w, r, rfl, -, -, h3, -⟩ := hr
        exact h3
      | cons s' f =>
        have hl : Lettered s'.cat.name := by cases s'.cat <;> (simp only [Cat.name, Lettered]; decide)
        simp only [fileText, List.flatMap_cons, Section.text, List.append_assoc]
        exact (lettered_stops hl.append).2
    refine section_lex (hf s (by simp)) (hn s (by simp)) hst h fun l' h' => ?_
    have := ih (fun x hx => hf x (by simp [hx])) (fun x hx => hn x (by simp [hx])) h'
    simpa [fileText] using this

/-! ## What the parser sees -/

theorem visible_append (a b : List Tok) : visible (a ++ b) = visible a ++ visible b := by simp [visible]

theorem visible_ws (x : Bytes) : visible (wsTok x) = [] := by
  unfold wsTok
  split <;> simp [visible]

theorem visible_all {ts : List Tok} (h : ∀ t ∈ ts, t.code ≠ WHITESPACE) : visible ts = ts := by
  unfold visible
  rw [List.filter_eq_self]
  intro t ht
  simpa using h t ht

theorem code_ne (x : Tm) : x.code ≠ WHITESPACE := by
  have : (Tm.list.all fun x => decide (x.code ≠ WHITESPACE)) = true := by decide +kernel
  simpa using List.all_eq_true.mp this x (List.mem_of_getElem? (Tm.list_get x))

/-- Tokens with proper codes. -/
def Coded (ts : List Tok) : Prop := ∀ t ∈ ts, ∃ x : Tm, t.code = x.code

theorem Coded.semi {xs : List (List Tok)} (h : ∀ x ∈ xs, Coded x) : Coded (semiToks xs) := by
  induction xs with
  | nil => intro t ht; cases ht
  | cons x xs ih =>
    cases xs with
    | nil => exact h x (by simp)
    | cons y ys =>
      intro t ht
      simp only [semiToks, List.mem_append, List.mem_cons] at ht
      rcases ht with ht | rfl | ht
      · exact h x (by simp) t ht
      · exact ⟨.SEMI, rfl⟩
      · exact ih (fun z hz => h z (List.mem_cons_of_mem _ hz)) t ht

end Locale
