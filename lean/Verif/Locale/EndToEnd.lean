import Verif.Locale.FileParse
import Verif.Locale.CommentsProps

/-!
# Locale files, from the text to the definitions

C78 and C79.
-/

namespace Locale
open Go

/-! ## Specification -/

/-- The lines of a statement. -/
def Stmt.lines (s : Stmt) : List Bytes := withEnds s.line s.after

/-- The lines of a section. -/
def Section.lines (s : Section) : List Bytes :=
  withEnds s.cat.name s.after ++ (s.stmts.flatMap Stmt.lines ++ withEnds s.endLine s.endAfter)

/-- The lines of a file. -/
def fileLines (f : List Section) : List Bytes := f.flatMap Section.lines

/-- An ordinary line: it is not continued by the next one, changes no special character, and its last character can be
decoded. -/
def PlainLine (l : Bytes) : Prop :=
  nl ∉ l ∧ ¬ b!"comment_char" <+: l ∧ ¬ b!"escape_char" <+: l ∧ (l = [] ∨ ∃ r, EndsWith l r ∧ r ≠ 92)

/-- A comment. -/
def isComment (l : Bytes) : Bool := l.head? == some 35

/-! ## Tokens of a file -/

theorem Coded.append {a b : List Tok} (ha : Coded a) (hb : Coded b) : Coded (a ++ b) := by
  intro t ht
  rcases List.mem_append.mp ht with h | h
  · exact ha t h
  · exact hb t h

theorem Coded.str (s : List Nat) : Coded (strToks s) := by
  unfold strToks
  split
  · intro t ht
    simp only [List.mem_cons, List.not_mem_nil, or_false] at ht
    exact ⟨_, by rw [ht]⟩
  · intro t ht
    simp only [List.mem_cons, List.mem_append, List.not_mem_nil, or_false] at ht
    rcases ht with rfl | ht | rfl
    · exact ⟨.DQUOTE, rfl⟩
    · rcases charToks_code s t ht with e | e | e | e <;> exact ⟨_, e⟩
    · exact ⟨.DQUOTE, rfl⟩

/-- No token of a value ends a line. -/
theorem val_toks_ok (v : Val) : Coded v.toks ∧ (∀ t ∈ v.toks, t.code ≠ Tm.EOL.code) ∧
    ∀ t ∈ v.toks, t.code = Tm.NUMBER.code → (59 : UInt8) ∉ t.val := by
  have str : ∀ s : List Nat, ∀ t ∈ strToks s, t.code ≠ Tm.EOL.code ∧ t.code ≠ Tm.NUMBER.code := by
    intro s t ht
    unfold strToks at ht
    split at ht
    · simp only [List.mem_cons, List.not_mem_nil, or_false] at ht
      rw [ht]; decide
    · simp only [List.mem_cons, List.mem_append, List.not_mem_nil, or_false] at ht
      rcases ht with rfl | ht | rfl
      · dsimp only; decide
      · rcases charToks_code s t ht with e | e | e | e <;> (rw [e]; decide)
      · dsimp only; decide
  have semi : ∀ xs : List (List Tok), (∀ x ∈ xs, Coded x ∧ (∀ t ∈ x, t.code ≠ Tm.EOL.code) ∧
      ∀ t ∈ x, t.code = Tm.NUMBER.code → (59 : UInt8) ∉ t.val) → Coded (semiToks xs) ∧ (∀ t ∈ semiToks xs, t.code ≠ Tm.EOL.code) ∧
      ∀ t ∈ semiToks xs, t.code = Tm.NUMBER.code → (59 : UInt8) ∉ t.val := by
    intro xs h
    refine ⟨Coded.semi fun x hx => (h x hx).1, ?_⟩
    induction xs with
    | nil => exact ⟨by simp [semiToks], by simp [semiToks]⟩
    | cons x xs ih =>
      cases xs with
      | nil => exact (h x (by simp)).2
      | cons y ys =>
        obtain ⟨i1, i2⟩ := ih (fun z hz => h z (by simp [hz]))
        obtain ⟨-, h1, h2⟩ := h x (by simp)
        constructor
        · intro t ht
          simp only [semiToks, List.mem_append, List.mem_cons] at ht
          rcases ht with ht | rfl | ht
          · exact h1 t ht
          · decide
          · exact i1 t ht
        · intro t ht
          simp only [semiToks, List.mem_append, List.mem_cons] at ht
          rcases ht with ht | rfl | ht
          · exact h2 t ht
          · intro hc; exact absurd hc (by decide)
          · exact i2 t ht
  cases v with
  | chars ns =>
    refine semi _ ?_
    intro x hx
    obtain ⟨y, -, rfl⟩ := List.mem_map.mp hx
    refine ⟨?_, ?_, ?_⟩ <;> intro t ht <;> simp only [List.mem_cons, List.not_mem_nil, or_false] at ht <;> subst ht
    · exact ⟨.CHARSYMBOL, rfl⟩
    · dsimp only; decide
    · intro hc; exact absurd hc (by dsimp only; decide)
  | pairs ps =>
    refine semi _ ?_
    intro x hx
    obtain ⟨y, -, rfl⟩ := List.mem_map.mp hx
    refine ⟨?_, ?_, ?_⟩ <;> intro t ht <;> simp only [pairToks, List.mem_cons, List.not_mem_nil, or_false] at ht <;>
      rcases ht with rfl | rfl | rfl | rfl | rfl
    · exact ⟨.LPAREN, rfl⟩
    · exact ⟨.CHARSYMBOL, rfl⟩
    · exact ⟨.COMMA, rfl⟩
    · exact ⟨.CHARSYMBOL, rfl⟩
    · exact ⟨.RPAREN, rfl⟩
    all_goals (intro hc; exact absurd hc (by dsimp only; decide))
  | strs ss =>
    refine semi _ ?_
    intro x hx
    obtain ⟨y, -, rfl⟩ := List.mem_map.mp hx
    exact ⟨Coded.str y, fun t ht => (str y t ht).1, fun t ht hc => absurd hc (str y t ht).2⟩
  | str s => exact ⟨Coded.str s, fun t ht => (str s t ht).1, fun t ht hc => absurd hc (str s t ht).2⟩
  | int i =>
    refine ⟨?_, ?_, ?_⟩ <;> intro t ht <;> simp only [Val.toks, List.mem_cons, List.not_mem_nil, or_false] at ht <;> subst ht
    · exact ⟨.NUMBER, rfl⟩
    · dsimp only; decide
    · intro _; exact itoa_no_semi i
  | ints is =>
    refine semi _ ?_
    intro x hx
    obtain ⟨y, -, rfl⟩ := List.mem_map.mp hx
    refine ⟨?_, ?_, ?_⟩ <;> intro t ht <;> simp only [List.mem_cons, List.not_mem_nil, or_false] at ht <;> subst ht
    · exact ⟨.NUMBER, rfl⟩
    · dsimp only; decide
    · intro _; exact itoa_no_semi y
  | msg s =>
    refine ⟨?_, ?_, ?_⟩ <;> intro t ht <;> simp only [Val.toks, List.mem_cons, List.not_mem_nil, or_false] at ht <;>
      rcases ht with rfl | rfl | rfl
    · exact ⟨.DQUOTE, rfl⟩
    · exact ⟨.EXTENDED_REG_EXP, rfl⟩
    · exact ⟨.DQUOTE, rfl⟩
    all_goals (intro hc; exact absurd hc (by dsimp only; decide))

theorem Coded.visible {ts : List Tok} (h : Coded ts) : visible ts = ts := by
  refine visible_all fun t ht => ?_
  obtain ⟨x, hx⟩ := h t ht
  rw [hx]
  exact code_ne x

theorem visible_cons (x : Tm) (v : Bytes) (ts : List Tok) : visible (⟨x.code, v⟩ :: ts) = ⟨x.code, v⟩ :: visible ts := by
  simp [visible, code_ne x]

theorem visible_eol (k : Ends) : visible [eolTok k] = [eolTok k] := visible_cons .EOL _ []

theorem visible_sent (f : List Section) : visible (f.flatMap Section.sent) = f.flatMap Section.toks := by
  have st : ∀ s : Stmt, visible s.sent = s.toks := by
    intro s
    simp only [Stmt.sent, Stmt.toks, visible_append, visible_ws, visible_cons, (val_toks_ok s.val).1.visible, visible_eol,
      List.nil_append]
  have sts : ∀ ss : List Stmt, visible (ss.flatMap Stmt.sent) = ss.flatMap Stmt.toks := by
    intro ss
    induction ss with
    | nil => rfl
    | cons s ss ih => simp only [List.flatMap_cons, visible_append, st, ih]
  induction f with
  | nil => rfl
  | cons s f ih =>
    have e : ∀ (k : Ends) ts, visible (eolTok k :: ts) = eolTok k :: visible ts := fun k ts => visible_cons .EOL _ ts
    simp only [List.flatMap_cons, visible_append, ih, Section.sent, Section.toks, Section.endSent, visible_cons, e, sts,
      visible_ws, List.nil_append]
    rfl

theorem kw_table (c : Cat) : (c.map.all fun e => decide (e.2.1.code ≠ Tm.NUMBER.code ∧ e.2.1.code ≠ Tm.EOL.code ∧
    (e.2.1.code = Tm.MON_GROUPING_STR.code ↔ e.1 = b!"mon_grouping") ∧ (e.1 = b!"mon_grouping" → e.2.2 = .intList) ∧
    (e.1 = b!"int_curr_symbol" → e.2.2 = .string ∧ e.2.1.code ∈ stringKeywords.map Tm.code))) = true := by
  cases c <;> decide +kernel

theorem file_coded (f : List Section) (hf : ∀ s ∈ f, s.WF) : Coded (f.flatMap Section.toks) ∧
    ∀ t ∈ f.flatMap Section.toks, t.code = Tm.NUMBER.code → (59 : UInt8) ∉ t.val := by
  have nn : ∀ (c : Cat), c.tm.code ≠ Tm.NUMBER.code := by intro c; cases c <;> decide
  have key : ∀ t ∈ f.flatMap Section.toks, (∃ x : Tm, t.code = x.code) ∧ (t.code = Tm.NUMBER.code → (59 : UInt8) ∉ t.val) := by
    intro t ht
    obtain ⟨s, hs, ht⟩ := List.mem_flatMap.mp ht
    simp only [Section.toks, List.mem_cons, List.mem_append, List.mem_flatMap, List.not_mem_nil, or_false, eolTok] at ht
    rcases ht with rfl | rfl | ⟨x, hx, ht⟩ | rfl | rfl | rfl
    · exact ⟨⟨_, rfl⟩, fun hc => absurd hc (nn _)⟩
    · exact ⟨⟨.EOL, rfl⟩, fun hc => absurd hc (by dsimp only; decide)⟩
    · simp only [Stmt.toks, List.mem_cons, List.mem_append, List.not_mem_nil, or_false, eolTok] at ht
      rcases ht with rfl | ht | rfl
      · refine ⟨⟨_, rfl⟩, fun hc => ?_⟩
        have := List.all_eq_true.mp (kw_table s.cat) _ ((hf s hs).1 x hx).mem
        simp only [decide_eq_true_eq] at this
        exact absurd hc this.1
      · exact ⟨(val_toks_ok x.val).1 t ht, (val_toks_ok x.val).2.2 t ht⟩
      · exact ⟨⟨.EOL, rfl⟩, fun hc => absurd hc (by dsimp only; decide)⟩
    · exact ⟨⟨.END_STR, rfl⟩, fun hc => absurd hc (by dsimp only; decide)⟩
    · exact ⟨⟨_, rfl⟩, fun hc => absurd hc (nn _)⟩
    · exact ⟨⟨.EOL, rfl⟩, fun hc => absurd hc (by dsimp only; decide)⟩
  exact ⟨fun t ht => (key t ht).1, fun t ht => (key t ht).2⟩

/-! ## What the tokens define -/

theorem numbers_semi (is : List Int) : numbers (semiToks (is.map fun i => [⟨Tm.NUMBER.code, itoa i⟩])) = is.map itoa := by
  induction is with
  | nil => rfl
  | cons i is ih =>
    cases is with
    | nil => rfl
    | cons j js =>
      have e : numbers (⟨Tm.NUMBER.code, itoa i⟩ :: ⟨Tm.SEMI.code, b!";"⟩ :: semiToks ((j :: js).map fun i => [⟨Tm.NUMBER.code, itoa i⟩])) =
          itoa i :: numbers (semiToks ((j :: js).map fun i => [⟨Tm.NUMBER.code, itoa i⟩])) := by
        simp only [numbers]
        rw [List.filter_cons_of_pos (by simp), List.filter_cons_of_neg (by dsimp only; decide)]
        rfl
      simp only [List.map_cons] at ih e ⊢
      simp only [semiToks, List.cons_append, List.nil_append]
      rw [e, ih]

theorem quoted_str {s : List Nat} (hs : strOk s = true) : quoted (strToks s) = if s = [] then b!"\"\"" else ofRunes s := by
  unfold strToks
  split
  · rfl
  · cases s with
    | nil => contradiction
    | cons r rs =>
      rw [← (content_of_ok hs).flat]
      obtain ⟨t, ts, e⟩ := List.exists_cons_of_ne_nil ((content_of_ok hs).ne (by simp))
      rw [e]
      show ((t :: ts ++ [_]).dropLast.map Tok.val).flatten = _
      rw [List.dropLast_concat]

theorem stmt_means {c : Cat} {s : Stmt} (hs : s.WF c) (ha : s.val.Accepted c) (d : Def) :
    stmt d (⟨s.tm.code, s.word⟩ :: s.val.toks) = s.defines d := by
  have hk := List.all_eq_true.mp (kw_table c) _ hs.mem
  simp only [decide_eq_true_eq] at hk
  obtain ⟨-, -, k3, k4, k5⟩ := hk
  simp only [stmt]
  unfold Stmt.defines
  by_cases h1 : s.word = b!"mon_grouping"
  · rw [if_pos (k3.mpr h1), if_pos h1]
    have := k4 h1
    cases hv : s.val <;> rw [hv] at this ha <;> try (cases this; done)
    rename_i is
    simp only [Val.toks, numbers_semi, List.map_map]
    congr 1
    have : is.map ((fun v => (atoi? v).getD 0) ∘ itoa) = is.map id := by
      refine List.map_congr_left fun i hi => ?_
      simp [atoi?_itoa (ha i hi)]
    rw [this, List.map_id]
  · rw [if_neg (fun h => h1 (k3.mp h)), if_neg h1]
    by_cases h2 : s.word = b!"int_curr_symbol"
    · rw [if_pos ⟨(k5 h2).2, h2⟩, if_pos h2]
      have := (k5 h2).1
      have hw := hs.2.2.2.2
      cases hv : s.val <;> rw [hv] at this hw <;> try (cases this; done)
      simp only [Val.toks]
      rw [quoted_str hw]
    · rw [if_neg (fun h => h2 h.2), if_neg h2]

theorem file_feed (f : List Section) (hf : ∀ s ∈ f, s.WF) (ha : ∀ s ∈ f, s.Accepted) (d : Def) :
    (f.flatMap Section.toks).foldl feed ([], d) = ([], f.foldl Section.defines d) := by
  have catne : ∀ c : Cat, c.tm.code ≠ Tm.EOL.code ∧ dangerous c.tm.code = false := by intro c; cases c <;> decide +kernel
  induction f generalizing d with
  | nil => rfl
  | cons s f ih =>
    rw [List.flatMap_cons, List.foldl_append, List.foldl_cons]
    have sec : s.toks.foldl feed ([], d) = ([], s.defines d) := by
      have e : s.toks = ([⟨s.cat.tm.code, s.cat.name⟩] ++ [(⟨Tm.EOL.code, lineEnd s.after⟩ : Tok)]) ++ (s.stmts.flatMap Stmt.toks ++
          ([⟨Tm.END_STR.code, b!"END"⟩, ⟨s.cat.tm.code, s.cat.name⟩] ++ [(⟨Tm.EOL.code, lineEnd s.endAfter⟩ : Tok)])) := by
        simp [Section.toks, eolTok]
      rw [e, List.foldl_append, feed_safe_line (by simpa using (catne s.cat).2) rfl, List.foldl_append]
      have sts : ∀ (ss : List Stmt) (d : Def), (∀ x ∈ ss, x.WF s.cat) → (∀ x ∈ ss, x.val.Accepted s.cat) →
          (ss.flatMap Stmt.toks).foldl feed ([], d) = ([], ss.foldl Stmt.defines d) := by
        intro ss
        induction ss with
        | nil => intro d _ _; rfl
        | cons x ss ih =>
          intro d h1 h2
          have e : x.toks = (⟨x.tm.code, x.word⟩ :: x.val.toks) ++ [(⟨Tm.EOL.code, lineEnd x.after⟩ : Tok)] := by
            simp [Stmt.toks, eolTok]
          have hk := List.all_eq_true.mp (kw_table s.cat) _ (h1 x (by simp)).mem
          simp only [decide_eq_true_eq] at hk
          rw [List.flatMap_cons, List.foldl_append, e, feed_line ?_, List.nil_append, stmt_means (h1 x (by simp)) (h2 x (by simp))]
          · exact ih _ (fun y hy => h1 y (by simp [hy])) (fun y hy => h2 y (by simp [hy]))
          · intro t ht
            rcases List.mem_cons.mp ht with rfl | ht
            · exact hk.2.1
            · exact (val_toks_ok x.val).2.1 t ht
      rw [sts s.stmts d (hf s (by simp)).1 (fun x hx => ((ha s (by simp)).2 x hx).2)]
      rw [feed_safe_line ?_ rfl]
      · rfl
      · intro t ht
        simp only [List.mem_cons, List.not_mem_nil, or_false] at ht
        rcases ht with rfl | rfl
        · decide
        · exact (catne s.cat).2
    rw [sec]
    exact ih (fun x hx => hf x (by simp [hx])) (fun x hx => ha x (by simp [hx])) _

theorem file_means (f : List Section) (hf : ∀ s ∈ f, s.WF) (ha : ∀ s ∈ f, s.Accepted) (d : Def) :
    (tokLines [] (f.flatMap Section.toks)).foldl stmt d = f.foldl Section.defines d := by
  rw [← feed_lines, file_feed f hf ha]

/-- The parser takes the tokens of a file. -/
theorem file_parse (f : List Section) (hne : f ≠ []) (hf : ∀ s ∈ f, s.WF) (ha : ∀ s ∈ f, s.Accepted) (handler : Bool) (d : Def) :
    parse handler (f.flatMap Section.toks) d = .ok (0, f.foldl Section.defines d) := by
  obtain ⟨vs, d', h⟩ := file_derives hne hf ha d
  have hl := h.length
  match vs, hl with
  | [v], _ =>
    have hp := C57_complete handler _ d d' ⟨v, h⟩
    have hc := file_coded f hf
    have := C58_stores handler _ (fun t ht => by
      obtain ⟨x, hx⟩ := hc.1 t ht
      rw [hx]
      have : (Tm.list.all fun x => decide (0 < x.code)) = true := by decide +kernel
      simpa using List.all_eq_true.mp this x (List.mem_of_getElem? (Tm.list_get x))) hc.2 d d' hp
    rw [hp, this, file_means f hf ha]

/-! ## The lines of a file are ordinary lines -/

theorem unlines_ends (l : Bytes) (k : Ends) : unlines (withEnds l k) = l ++ lineEnd k := by
  have : ∀ bl : List Nat, unlines (bl.map crs) = bl.flatMap fun j => crs j ++ [nl] := by
    intro bl
    induction bl with
    | nil => rfl
    | cons j bl ih => simp [unlines, ih]
  simp [withEnds, lineEnd, unlines, this]

theorem lineEnd_more (k : Ends) : lineEnd k.more = lineEnd k ++ [nl] := by simp [lineEnd, Ends.more, crs]

theorem fileText_lines (f : List Section) : fileText f = unlines (fileLines f) := by
  have st : ∀ s : Stmt, s.text = unlines s.lines := by
    intro s
    rw [Stmt.lines, unlines_ends, Stmt.text]
  have sts : ∀ ss : List Stmt, ss.flatMap Stmt.text = unlines (ss.flatMap Stmt.lines) := by
    intro ss
    induction ss with
    | nil => rfl
    | cons s ss ih => simp only [List.flatMap_cons, unlines_append, st, ih]
  unfold fileText fileLines
  induction f with
  | nil => rfl
  | cons s f ih =>
    simp only [List.flatMap_cons, unlines_append, ih]
    congr 1
    simp [Section.text, Section.lines, unlines_append, unlines_ends, sts]

theorem encode_nl {r : Nat} (hv : ValidRune r) (h : r ≠ 10) : nl ∉ encodeRune r := by
  by_cases hr : r < 0x80
  · have : encodeRune r = [UInt8.ofNat r] := by unfold encodeRune; rw [if_pos hr]
    rw [this]
    simp only [List.mem_cons, List.not_mem_nil, or_false, nl]
    intro e
    have := congrArg UInt8.toNat e
    rw [byte_toNat r (by omega)] at this
    exact h this.symm
  · obtain ⟨b, bs, e, h1, h2, h3, -, h4⟩ := encode_shape r hv (by omega)
    obtain ⟨b', bs', e', hd⟩ := decode_encode r hv []
    rw [e] at e' ⊢
    simp only [List.cons.injEq] at e'
    obtain ⟨rfl, rfl⟩ := e'
    intro hm
    rcases List.mem_cons.mp hm with hb | hb
    · subst hb
      have : decodeRune nl (bs ++ []) = (10, 1) := by
        simp only [decodeRune]
        rw [if_pos (by decide)]
        rfl
      rw [this] at hd
      exact h (congrArg (fun x => x.1) hd).symm
    · have := h4 _ hb
      revert this
      decide

theorem runes_nl {rs : List Nat} (h : ∀ r ∈ rs, ValidRune r ∧ r ≠ 10) : nl ∉ ofRunes rs := by
  intro hm
  obtain ⟨r, hr, hb⟩ := List.mem_flatMap.mp hm
  exact encode_nl (h r hr).1 (h r hr).2 hb

theorem semi_nl {xs : List Bytes} (h : ∀ x ∈ xs, nl ∉ x) : nl ∉ semiText xs := by
  induction xs with
  | nil => simp [semiText]
  | cons x xs ih =>
    cases xs with
    | nil => exact h x (by simp)
    | cons y ys =>
      simp only [semiText, List.mem_append, List.mem_cons, not_or]
      exact ⟨h x (by simp), by decide, ih fun z hz => h z (by simp [hz])⟩

/-- A text that ends in an ASCII character other than a backslash. -/
def Solid (x : Bytes) : Prop := ∃ y b, x = y ++ [b] ∧ b.toNat < 0x80 ∧ b ≠ 92

theorem Solid.append {x : Bytes} (h : Solid x) (a : Bytes) : Solid (a ++ x) := by
  obtain ⟨y, b, rfl, h⟩ := h
  exact ⟨a ++ y, b, by simp, h⟩

theorem Solid.ends {x : Bytes} (h : Solid x) : ∃ r, EndsWith x r ∧ r ≠ 92 := by
  obtain ⟨y, b, rfl, h1, h2⟩ := h
  refine ⟨b.toNat, ⟨(encode1 h1).1, ?_, y, by rw [(encode1 h1).2]⟩, ?_⟩
  · unfold runeError; omega
  · intro e
    exact h2 (UInt8.toNat_inj.mp e)

theorem semi_solid {xs : List Bytes} (hne : xs ≠ []) (h : ∀ x ∈ xs, Solid x) : Solid (semiText xs) := by
  induction xs with
  | nil => exact absurd rfl hne
  | cons x xs ih =>
    cases xs with
    | nil => exact h x (by simp)
    | cons y ys =>
      have := ih (by simp) fun z hz => h z (by simp [hz])
      have := this.append (x ++ [59])
      simpa [semiText] using this

theorem itoa_solid (i : Int) : Solid (itoa i) := by
  obtain ⟨h1, h2, -⟩ := itoa_spec i
  refine ⟨(itoa i).dropLast, (itoa i).getLast h2, (List.dropLast_concat_getLast h2).symm, ?_⟩
  have := h1 _ (List.getLast_mem h2)
  have all : ∀ b ∈ b!"-1234567890", b.toNat < 0x80 ∧ b ≠ 92 := by decide
  exact all _ this

theorem itoa_nl (i : Int) : nl ∉ itoa i := by
  intro h
  have := (itoa_spec i).1 _ h
  revert this
  decide

theorem name_nl {x : Bytes} (h : ∀ b ∈ x, b ∈ nameChars) : nl ∉ charText x := by
  simp only [charText, List.mem_cons, List.mem_append, List.not_mem_nil, or_false, not_or]
  refine ⟨by decide, fun hx => ?_, by decide⟩
  have := h _ hx
  revert this
  decide

theorem val_plain {v : Val} (h : v.WF) : nl ∉ v.text ∧ Solid v.text := by
  have str : ∀ s : List Nat, (∀ r ∈ s, ValidRune r ∧ r ≠ 10) → nl ∉ strText s ∧ Solid (strText s) := by
    intro s hs
    refine ⟨?_, ⟨34 :: ofRunes s, 34, rfl, by decide, by decide⟩⟩
    simp only [strText, List.mem_cons, List.mem_append, List.not_mem_nil, or_false, not_or]
    exact ⟨by decide, runes_nl hs, by decide⟩
  cases v with
  | chars ns =>
    constructor
    · refine semi_nl fun x hx => ?_
      obtain ⟨y, hy, rfl⟩ := List.mem_map.mp hx
      exact name_nl (h.2 y hy)
    · refine semi_solid (by simpa using h.1) fun x hx => ?_
      obtain ⟨y, hy, rfl⟩ := List.mem_map.mp hx
      exact ⟨60 :: y, 62, rfl, by decide, by decide⟩
  | pairs ps =>
    constructor
    · refine semi_nl fun x hx => ?_
      obtain ⟨y, hy, rfl⟩ := List.mem_map.mp hx
      have h1 := name_nl (h.2 y hy).1
      have h2 := name_nl (h.2 y hy).2
      simp only [pairText, List.mem_cons, List.mem_append, List.not_mem_nil, or_false, not_or]
      exact ⟨by decide, h1, by decide, h2, by decide⟩
    · refine semi_solid (by simpa using h.1) fun x hx => ?_
      obtain ⟨y, hy, rfl⟩ := List.mem_map.mp hx
      exact ⟨40 :: (charText y.1 ++ 44 :: charText y.2), 41, by simp [pairText], by decide, by decide⟩
  | strs ss =>
    have hs : ∀ s ∈ ss, ∀ r ∈ s, ValidRune r ∧ r ≠ 10 := fun s hs r hr => (content_of_ok (h.2 s hs)).runes r hr
    constructor
    · refine semi_nl fun x hx => ?_
      obtain ⟨y, hy, rfl⟩ := List.mem_map.mp hx
      exact (str y (hs y hy)).1
    · refine semi_solid (by simpa using h.1) fun x hx => ?_
      obtain ⟨y, hy, rfl⟩ := List.mem_map.mp hx
      exact (str y (hs y hy)).2
  | str s => exact str s (content_of_ok h).runes
  | int i => exact ⟨itoa_nl i, itoa_solid i⟩
  | ints is =>
    constructor
    · refine semi_nl fun x hx => ?_
      obtain ⟨y, hy, rfl⟩ := List.mem_map.mp hx
      exact itoa_nl y
    · refine semi_solid (by simpa [Val.WF] using h) fun x hx => ?_
      obtain ⟨y, hy, rfl⟩ := List.mem_map.mp hx
      exact itoa_solid y
  | msg s => exact str s fun r hr => ⟨(h r hr).1, (h r hr).2.2⟩

theorem prefix_cut {p a c : Bytes} {b : UInt8} (h : p <+: a ++ b :: c) (hb : b ∉ p) : p <+: a := by
  induction p generalizing a with
  | nil => exact List.nil_prefix
  | cons x p ih =>
    cases a with
    | nil =>
      simp only [List.nil_append, List.cons_prefix_cons] at h
      exact absurd (by simp [h.1]) hb
    | cons y a =>
      simp only [List.cons_append, List.cons_prefix_cons] at h
      exact List.cons_prefix_cons.mpr ⟨h.1, ih h.2 (fun hh => hb (by simp [hh]))⟩

theorem blank_nl {x : Bytes} (h : Blank x) : nl ∉ x := by
  intro hx
  have := h _ hx
  revert this
  decide

/-- Lines made of blanks, a word, blanks, and something. -/
theorem worded_plain {lead word gap rest : Bytes} (h1 : Blank lead) (h2 : ∀ b ∈ word, b ∈ wordChars) (h2' : word ≠ [])
    (h3 : Blank gap) (h3' : gap ≠ []) (hr : nl ∉ rest) (hs : Solid rest)
    (hc : ¬ b!"comment_char" <+: word) (he : ¬ b!"escape_char" <+: word) :
    PlainLine (lead ++ (word ++ (gap ++ rest))) ∧ isComment (lead ++ (word ++ (gap ++ rest))) = false := by
  have hw : nl ∉ word := by
    intro hx
    have := h2 _ hx
    revert this
    decide
  have pre : ∀ p : Bytes, (∀ b ∈ p, b ∈ wordChars) → p ≠ [] → ¬ p <+: word → ¬ p <+: lead ++ (word ++ (gap ++ rest)) := by
    intro p hp hne hn h
    have blank : ∀ b ∈ whiteSpace, b ∉ wordChars := by decide
    cases lead with
    | nil =>
      cases gap with
      | nil => exact h3' rfl
      | cons g gap =>
        exact hn (prefix_cut (b := g) h (fun hg => blank g (h3 g (by simp)) (hp g hg)))
    | cons b lead =>
      cases p with
      | nil => exact hne rfl
      | cons x p =>
        simp only [List.cons_append, List.cons_prefix_cons] at h
        have h4 := hp x (by simp)
        rw [h.1] at h4
        exact blank b (h1 b (by simp)) h4
  refine ⟨⟨?_, pre _ (by decide) (by decide) hc, pre _ (by decide) (by decide) he, .inr ?_⟩, ?_⟩
  · simp only [List.mem_append, not_or]
    exact ⟨blank_nl h1, hw, blank_nl h3, hr⟩
  · have := hs.append (lead ++ (word ++ gap))
    simp only [List.append_assoc] at this
    exact this.ends
  · unfold isComment
    rw [beq_eq_false_iff_ne]
    cases lead with
    | nil =>
      cases word with
      | nil => exact absurd rfl h2'
      | cons b word =>
        simp only [List.nil_append, List.cons_append, List.head?_cons, ne_eq, Option.some.injEq]
        rintro rfl
        have := h2 35 (by simp)
        revert this
        decide
    | cons b lead =>
      simp only [List.cons_append, List.head?_cons, ne_eq, Option.some.injEq]
      rintro rfl
      have := h1 35 (by simp)
      revert this
      decide

theorem words_plain (c : Cat) : (c.map.all fun e => !(b!"comment_char".isPrefixOf e.1) && !(b!"escape_char".isPrefixOf e.1)) = true := by
  cases c <;> decide +kernel

theorem blank_line_plain : PlainLine [] ∧ isComment [] = false := ⟨⟨by simp, by decide, by decide, .inl rfl⟩, rfl⟩

theorem cr_not_nl (j : Nat) : nl ∉ crs j := by
  simp only [crs, List.mem_replicate, not_and]
  intro _
  decide

theorem crs_plain (j : Nat) : PlainLine (crs j) ∧ isComment (crs j) = false := by
  cases j with
  | zero => exact blank_line_plain
  | succ j =>
    refine ⟨⟨cr_not_nl _, ?_, ?_, .inr (Solid.ends ⟨crs j, 13, List.replicate_succ', by decide, by decide⟩)⟩, rfl⟩
    all_goals
      simp only [crs, List.replicate_succ, List.cons_prefix_cons, not_and]
      intro h
      exact absurd h (by decide)

/-- A word does not become the beginning of a line by carriage returns at the end. -/
theorem prefix_crs {w x : Bytes} {j : Nat} (hw : 13 ∉ w) (h : w <+: x ++ crs j) : w <+: x := by
  rcases List.prefix_or_prefix_of_prefix h (List.prefix_append x (crs j)) with h' | ⟨y, rfl⟩
  · exact h'
  · cases y with
    | nil => simp
    | cons b y =>
      rw [List.prefix_append_right_inj] at h
      have : b ∈ crs j := h.subset (by simp)
      rw [(List.mem_replicate.mp this).2] at hw
      simp at hw

theorem ends_plain {l x : Bytes} {k : Ends} (hx : PlainLine x ∧ isComment x = false) (h : l ∈ withEnds x k) :
    PlainLine l ∧ isComment l = false := by
  simp only [withEnds, List.mem_cons, List.mem_map] at h
  rcases h with rfl | ⟨j, -, rfl⟩
  · obtain ⟨⟨p1, p2, p3, p4⟩, p5⟩ := hx
    cases hj : k.first with
    | zero => simpa [crs] using (⟨⟨p1, p2, p3, p4⟩, p5⟩ : PlainLine x ∧ isComment x = false)
    | succ j =>
      refine ⟨⟨?_, fun h => p2 (prefix_crs (by decide) h), fun h => p3 (prefix_crs (by decide) h), .inr (Solid.ends ?_)⟩, ?_⟩
      · simp only [List.mem_append, not_or]
        exact ⟨p1, cr_not_nl _⟩
      · exact ⟨x ++ crs j, 13, by simp [crs, List.replicate_succ'], by decide, by decide⟩
      · cases x with
        | nil => rfl
        | cons b x => exact p5
  · exact crs_plain j

theorem file_lines_plain {f : List Section} (hf : ∀ s ∈ f, s.WF) : ∀ l ∈ fileLines f, PlainLine l ∧ isComment l = false := by
  intro l hl
  obtain ⟨s, hs, hl⟩ := List.mem_flatMap.mp hl
  have wf := hf s hs
  simp only [Section.lines, List.mem_append, List.mem_flatMap] at hl
  have name : nl ∉ s.cat.name ∧ Solid s.cat.name := by
    constructor
    · cases s.cat <;> decide
    · cases s.cat
      · exact ⟨b!"LC_CTYP", 69, rfl, by decide, by decide⟩
      · exact ⟨b!"LC_MONETAR", 89, rfl, by decide, by decide⟩
      · exact ⟨b!"LC_NUMERI", 67, rfl, by decide, by decide⟩
      · exact ⟨b!"LC_TIM", 69, rfl, by decide, by decide⟩
      · exact ⟨b!"LC_MESSAGE", 83, rfl, by decide, by decide⟩
  rcases hl with hl | ⟨x, hx, hl⟩ | hl
  · refine ends_plain ?_ hl
    refine ⟨⟨name.1, ?_, ?_, .inr name.2.ends⟩, ?_⟩ <;> cases s.cat <;> decide
  · refine ends_plain ?_ hl
    have w2 := (wf.1 x hx).mem
    obtain ⟨w1, -, w3, w4, w5⟩ := wf.1 x hx
    have hm := List.all_eq_true.mp (map_ok s.cat) _ w2
    simp only [decide_eq_true_eq] at hm
    have hp := List.all_eq_true.mp (words_plain s.cat) _ w2
    simp only [Bool.and_eq_true, Bool.not_eq_true', ← Bool.not_eq_true, List.isPrefixOf_iff_prefix] at hp
    obtain ⟨v1, v2⟩ := val_plain w5
    exact worded_plain w1 hm.1 hm.2.2.1 w3 w4 v1 v2 hp.1 hp.2
  · refine ends_plain ?_ hl
    obtain ⟨-, w1, w2, w3, w4⟩ := wf
    refine worded_plain (word := b!"END") w1 (by decide) (by decide) w2 w3 ?_ ?_ (by decide) (by decide)
    · simp only [List.mem_append, not_or]
      exact ⟨name.1, blank_nl w4⟩
    · by_cases he : s.endTrail = []
      · rw [he, List.append_nil]; exact name.2
      · refine Solid.append ⟨s.endTrail.dropLast, s.endTrail.getLast he, (List.dropLast_concat_getLast he).symm, ?_⟩ _
        have := w4 _ (List.getLast_mem he)
        have all : ∀ b ∈ whiteSpace, b.toNat < 0x80 ∧ b ≠ 92 := by decide
        exact all _ this

/-! ## The whole way -/

theorem file_whole (f : List Section) (hf : ∀ s ∈ f, s.WF) (rest : Bytes) (hr : Foreign rest) (input : Bytes)
    (hin : removeComments input = .ok (fileText f ++ rest, 92)) :
    ∃ N, ∀ n, N ≤ n → ∃ l, newLexer n input = .ok (f.flatMap Section.toks) l := by
  refine ⟨fileSize f + fileRounds f + 1, fun n hn => ?_⟩
  have hsz : ∀ s ∈ f, ∀ x ∈ s.stmts, x.val.size ≤ n := by
    intro s hs x hx
    have h1 := mem_sum_le (xs := s.stmts.map fun x => x.val.size) (List.mem_map.mpr ⟨x, hx, rfl⟩)
    have h2 := mem_sum_le (xs := f.map fun s => s.stmts.length + 2 + (s.stmts.map fun x => x.val.size).sum)
      (List.mem_map.mpr ⟨s, hs, rfl⟩)
    simp only [fileSize] at hn
    omega
  obtain ⟨k, rfl⟩ : ∃ k, n = fileRounds f + (k + 1) := ⟨n - fileRounds f - 1, by omega⟩
  obtain ⟨l, h1, h2⟩ := file_lex f hf _ hsz hr (k := k) (pre := []) (t := []) (l := { source := fileText f ++ rest })
    ⟨rfl, rfl, rfl, rfl⟩
  refine ⟨l, ?_⟩
  unfold newLexer
  rw [hin]
  simp only [lexText]
  rw [h1]
  simp only [h2, List.nil_append, visible_sent]

theorem strip_comments (lines : List Bytes) (h : ∀ l ∈ lines, PlainLine l) :
    removeComments (unlines lines) = .ok (unlines (lines.filter fun l => !isComment l) ++ [nl], 92) := by
  have e : unlines lines = join [nl] (lines ++ [[]]) := by
    cases lines with
    | nil => rfl
    | cons l ls =>
      have h1 := join_nl l (ls ++ [[]])
      have h2 : unlines (l :: (ls ++ [[]])) = unlines (l :: ls) ++ [nl] := by
        rw [← List.cons_append, unlines_append]; rfl
      rw [h2] at h1
      exact (List.append_cancel_right h1).symm
  have hall : ∀ l ∈ lines ++ [[]], PlainLine l := by
    intro l hl
    rcases List.mem_append.mp hl with hl | hl
    · exact h l hl
    · simp only [List.mem_cons, List.not_mem_nil, or_false] at hl
      rw [hl]
      exact blank_line_plain.1
  rw [e, C55_filters (lines ++ [[]]) (by simp) (fun l hl => (hall l hl).1) (fun l hl => ⟨(hall l hl).2.1, (hall l hl).2.2.1⟩)
    (fun l hl => (hall l hl).2.2.2)]
  have e2 : (lines ++ [[]]).filter (fun l => decide (l.head? ≠ some 35)) = lines.filter (fun l => !isComment l) ++ [[]] := by
    rw [List.filter_append]
    congr 1
    refine List.filter_congr fun l _ => ?_
    unfold isComment
    by_cases hl : l.head? = some 35 <;> simp [hl]
  rw [e2, unlines_append]
  rfl

/-- **C78.** A locale file: sections one after the other, with comment lines anywhere and a line end at the end. The
lexer finishes, the parser accepts, and what is defined is what the statements say, later ones overriding earlier ones. -/
theorem C78_file (f : List Section) (hne : f ≠ []) (hf : ∀ s ∈ f, s.WF) (ha : ∀ s ∈ f, s.Accepted)
    (lines : List Bytes) (hc : ∀ l ∈ lines, isComment l = true → PlainLine l)
    (hl : lines.filter (fun l => !isComment l) = fileLines f) (handler : Bool) (d : Def) :
    ∃ N, ∀ n, N ≤ n → ∃ toks l, newLexer n (unlines lines) = .ok toks l ∧
      parse handler toks d = .ok (0, f.foldl Section.defines d) := by
  have hall : ∀ l ∈ lines, PlainLine l := by
    intro l hm
    by_cases hcl : isComment l = true
    · exact hc l hm hcl
    · refine (file_lines_plain hf l ?_).1
      rw [← hl]
      simp [hm, hcl]
  have hst := strip_comments lines hall
  rw [hl, ← fileText_lines] at hst
  obtain ⟨g, s, rfl⟩ : ∃ g s, f = g ++ [s] := ⟨f.dropLast, f.getLast hne, (List.dropLast_concat_getLast hne).symm⟩
  have e : fileText (g ++ [s]) ++ [nl] = fileText (g ++ [{ s with endAfter := s.endAfter.more }]) ++ [] := by
    simp [fileText, Section.text, lineEnd_more, Section.endLine]
  rw [e] at hst
  have hf' : ∀ x ∈ g ++ [{ s with endAfter := s.endAfter.more }], x.WF := by
    intro x hx
    rcases List.mem_append.mp hx with hx | hx
    · exact hf x (by simp [hx])
    · simp only [List.mem_cons, List.not_mem_nil, or_false] at hx
      subst hx
      exact hf s (by simp)
  have ha' : ∀ x ∈ g ++ [{ s with endAfter := s.endAfter.more }], x.Accepted := by
    intro x hx
    rcases List.mem_append.mp hx with hx | hx
    · exact ha x (by simp [hx])
    · simp only [List.mem_cons, List.not_mem_nil, or_false] at hx
      subst hx
      exact ha s (by simp)
  obtain ⟨N, hN⟩ := file_whole _ hf' [] foreign_nil (unlines lines) hst
  refine ⟨N, fun n hn => ?_⟩
  obtain ⟨l, h1⟩ := hN n hn
  refine ⟨_, l, h1, ?_⟩
  rw [file_parse _ (by simp) hf' ha']
  simp [List.foldl_append, Section.defines]

/-- **C79.** After the last section the lexer stops at the first thing that is no section header, without an error: what
follows is not read, and the file is accepted with what comes before. -/
theorem C79_rest_ignored (f : List Section) (hne : f ≠ []) (hf : ∀ s ∈ f, s.WF) (ha : ∀ s ∈ f, s.Accepted)
    (lines junk : List Bytes) (hc : ∀ l ∈ lines, isComment l = true ∨ l ∈ junk → PlainLine l)
    (hl : lines.filter (fun l => !isComment l) = fileLines f ++ junk) (hj : Foreign (unlines junk ++ [nl])) (handler : Bool) (d : Def) :
    ∃ N, ∀ n, N ≤ n → ∃ toks l, newLexer n (unlines lines) = .ok toks l ∧
      parse handler toks d = .ok (0, f.foldl Section.defines d) := by
  have hall : ∀ l ∈ lines, PlainLine l := by
    intro l hm
    by_cases hcl : isComment l = true
    · exact hc l hm (.inl hcl)
    · have : l ∈ fileLines f ++ junk := by rw [← hl]; simp [hm, hcl]
      rcases List.mem_append.mp this with h | h
      · exact (file_lines_plain hf l h).1
      · exact hc l hm (.inr h)
  have hst := strip_comments lines hall
  rw [hl, unlines_append, ← fileText_lines, List.append_assoc] at hst
  obtain ⟨N, hN⟩ := file_whole _ hf _ hj (unlines lines) hst
  refine ⟨N, fun n hn => ?_⟩
  obtain ⟨l, h1⟩ := hN n hn
  exact ⟨_, l, h1, file_parse _ hne hf ha handler d⟩

/-! ## The hypotheses can be met -/

/-- A file with two sections. -/
def sampleFile : List Section := [
  { cat := .monetary, stmts := [
      { word := b!"int_curr_symbol", val := .str [69, 0xDC, 82, 92, 59, 92, 120, 50, 48] },
      { lead := b!"  ", word := b!"mon_grouping", gap := b!"\t", val := .ints [3, -1], after := 1 }] },
  { cat := .time, stmts := [{ word := b!"abday", val := .strs [[83], [77, 111]] }], endTrail := b!" " }]

instance (x : Bytes) : Decidable (Blank x) := inferInstanceAs (Decidable (∀ b ∈ x, b ∈ whiteSpace))

theorem sampleFile_ok : (∀ s ∈ sampleFile, s.WF) ∧ (∀ s ∈ sampleFile, s.Accepted) := by
  constructor
  · intro s hs
    simp only [sampleFile, List.mem_cons, List.not_mem_nil, or_false] at hs
    rcases hs with rfl | rfl
    · refine ⟨?_, by decide, by decide, by decide, by decide⟩
      intro x hx
      simp only [List.mem_cons, List.not_mem_nil, or_false] at hx
      rcases hx with rfl | rfl
      · refine ⟨by decide, by decide, by decide, by decide, ?_⟩
        exact (by decide : strOk [69, 0xDC, 82, 92, 59, 92, 120, 50, 48] = true)
      · exact ⟨by decide, by decide, by decide, by decide, by simp [Val.WF]⟩
    · refine ⟨?_, by decide, by decide, by decide, by decide⟩
      intro x hx
      simp only [List.mem_cons, List.not_mem_nil, or_false] at hx
      subst hx
      refine ⟨by decide, by decide, by decide, by decide, by simp, ?_⟩
      exact (by decide : ∀ s ∈ [[83], [77, 111]], strOk s = true)
  · intro s hs
    simp only [sampleFile, List.mem_cons, List.not_mem_nil, or_false] at hs
    rcases hs with rfl | rfl
    · refine ⟨by simp, ?_⟩
      intro x hx
      simp only [List.mem_cons, List.not_mem_nil, or_false] at hx
      rcases hx with rfl | rfl
      · exact ⟨by decide, by intro h; cases h⟩
      · refine ⟨by decide, ?_⟩
        intro i hi
        simp only [List.mem_cons, List.not_mem_nil, or_false] at hi
        rcases hi with rfl | rfl <;> (unfold FitsInt; omega)
    · refine ⟨by simp, ?_⟩
      intro x hx
      simp only [List.mem_cons, List.not_mem_nil, or_false] at hx
      subst hx
      refine ⟨by decide, ?_⟩
      intro _ s hs
      simp only [List.mem_cons, List.not_mem_nil, or_false] at hs
      rcases hs with rfl | rfl <;> simp

/-- The hypotheses of `C78_file` are met by a file of two sections with comments before and inside. -/
example : ∃ N, ∀ n, N ≤ n → ∃ toks l,
    newLexer n (b!"# a locale\nLC_MONETARY\nint_curr_symbol \"EÜR\\;\\x20\"\n#LC\n  mon_grouping\t3;-1\n\nEND LC_MONETARY\n" ++
      b!"LC_TIME\nabday \"S\";\"Mo\"\nEND LC_TIME \n") = .ok toks l ∧
    parse false toks {} = .ok (0, { intCurrSymbol := b!"EÜR\\;\\x20", monGrouping := [3, -1] }) := by
  have h := C78_file sampleFile (by simp [sampleFile]) sampleFile_ok.1 sampleFile_ok.2
    [b!"# a locale", b!"LC_MONETARY", b!"int_curr_symbol \"EÜR\\;\\x20\"", b!"#LC", b!"  mon_grouping\t3;-1", [], b!"END LC_MONETARY",
      b!"LC_TIME", b!"abday \"S\";\"Mo\"", b!"END LC_TIME "] ?_ (by decide +kernel) false {}
  · exact h
  · intro l hl hc
    simp only [List.mem_cons, List.not_mem_nil, or_false] at hl
    rcases hl with rfl | rfl | rfl | rfl | rfl | rfl | rfl | rfl | rfl | rfl <;> try (cases hc; done)
    · exact ⟨by decide, by decide, by decide, .inr (Solid.ends ⟨b!"# a local", 101, rfl, by decide, by decide⟩)⟩
    · exact ⟨by decide, by decide, by decide, .inr (Solid.ends ⟨b!"#L", 67, rfl, by decide, by decide⟩)⟩

/-- The hypotheses of `C79_rest_ignored` are met: an unknown section with a statement in it. -/
example : Foreign (unlines [b!"LC_FOO", b!"x y", b!"END LC_FOO"] ++ [nl]) :=
  ⟨b!"LC_FOO", b!"\nx y\nEND LC_FOO\n\n", rfl, by decide, ⟨by decide, by decide⟩, ⟨by decide, by decide⟩, by decide⟩

end Locale
