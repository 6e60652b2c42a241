import Verif.Locale.File

/-!
# The tokens of a locale file are in the grammar
-/

namespace Locale
open Go

/-! ## Specification: which files the grammar takes, and what they define -/

/-- A number the parser can convert. -/
def FitsInt (i : Int) : Prop := -2 ^ 63 ≤ i ∧ i < 2 ^ 63

/-- The grammar has no empty strings in `LC_TIME`; numbers in `LC_MONETARY` have to fit an `int`. -/
def Val.Accepted (c : Cat) : Val → Prop
  | .str s => c = .time → s ≠ []
  | .strs ss => c = .time → ∀ s ∈ ss, s ≠ []
  | .int i => FitsInt i
  | .ints is => ∀ i ∈ is, FitsInt i
  | _ => True

/-- Every section has a statement, and there is no `charclass` statement. -/
def Section.Accepted (s : Section) : Prop :=
  s.stmts ≠ [] ∧ ∀ x ∈ s.stmts, x.word ≠ b!"charclass" ∧ x.val.Accepted s.cat

/-- What a statement defines. Nothing but these two keywords is stored; an empty `int_curr_symbol` is stored as its two
quotes. -/
def Stmt.defines (d : Def) (s : Stmt) : Def :=
  if s.word = b!"mon_grouping" then
    match s.val with
    | .ints is => { d with monGrouping := is }
    | _ => d
  else if s.word = b!"int_curr_symbol" then
    match s.val with
    | .str r => { d with intCurrSymbol := if r = [] then b!"\"\"" else ofRunes r }
    | _ => d
  else d

/-- What a section defines. -/
def Section.defines (d : Def) (s : Section) : Def := s.stmts.foldl Stmt.defines d

/-! ## Building derivations -/

/-- The symbols derive the tokens, whatever is defined before. -/
def D (ss : List Sym) (ts : List Tok) : Prop := ∀ d, ∃ vs d', Derives ss ts d vs d'

theorem Derives.one {p : Prod} (hp : p ∈ grammar) {ts d us d1 v d2} (h : Derives p.rhs ts d us d1)
    (hm : Means p.action us d1 v d2) : Derives [.n p.lhs] ts d [v] d2 := by
  have := Derives.nt p hp ts [] d d1 d2 d2 us v [] [] h hm (.nil _)
  simpa using this

theorem D.nil : D [] [] := fun d => ⟨[], d, .nil d⟩

theorem D.append {ss ss' ts ts'} (h : D ss ts) (h' : D ss' ts') : D (ss ++ ss') (ts ++ ts') := by
  intro d
  obtain ⟨vs, d1, h1⟩ := h d
  obtain ⟨vs', d2, h2⟩ := h' d1
  exact ⟨_, _, h1.append h2⟩

theorem D.tm (x : Tm) (v : Bytes) : D [.t x] [⟨x.code, v⟩] := fun d => ⟨[v], d, .tm x v _ _ _ _ _ (.nil d)⟩

theorem D.cons {a ss ts ts'} (h : D [a] ts) (h' : D ss ts') : D (a :: ss) (ts ++ ts') := h.append h'

/-- The actions that cannot fail. -/
def easy (p : Prod) : Bool :=
  match p.action with
  | .concat => p.rhs.length == 2
  | .storeString | .minusOne | .unquote | .semicolon => p.rhs.length == 3
  | .first => true
  | .checkNumber | .storeGrouping => false

/-- A production whose action cannot fail. -/
def okp (p : Prod) : Bool := grammar.contains p && easy p

theorem D.prod (p : Prod) (hp : (okp p) = true) {ts} (h : D p.rhs ts) : D [.n p.lhs] ts := by
  intro d
  obtain ⟨vs, d1, h1⟩ := h d
  simp only [okp, Bool.and_eq_true, List.contains_iff_mem] at hp
  have hlen := h1.length
  have : ∃ v d2, Means p.action vs d1 v d2 := by
    have he := hp.2
    unfold easy at he
    cases ha : p.action <;> simp only [ha, beq_iff_eq, hlen] at he
    · match vs, he with
      | [a, b], _ => exact ⟨_, _, .concat a b d1⟩
    · match vs, he with
      | [a, b, c], _ =>
        by_cases hk : a = b!"int_curr_symbol"
        · subst hk; exact ⟨_, _, .currency b c d1⟩
        · exact ⟨_, _, .otherString a b c d1 hk⟩
    · cases he
    · match vs, he with
      | [a, b, c], _ => exact ⟨_, _, .minusOne a b c d1⟩
    · cases he
    · match vs, he with
      | [a, b, c], _ => exact ⟨_, _, .unquote a b c d1⟩
    · match vs, he with
      | [a, b, c], _ => exact ⟨_, _, .semicolon a b c d1⟩
    · cases vs with
      | nil => exact ⟨[], _, .empty [] d1⟩
      | cons v vs => exact ⟨_, _, .first v vs d1⟩
  obtain ⟨v, d2, hm⟩ := this
  exact ⟨_, _, Derives.one hp.1 h1 hm⟩

/-- Lists without separators. -/
theorem D.many (a b : Nt) (h1 : (okp ⟨a, [.n b]⟩) = true)
    (h2 : (okp ⟨a, [.n a, .n b]⟩) = true)
    {xs : List (List Tok)} (hne : xs ≠ []) (h : ∀ x ∈ xs, D [.n b] x) : D [.n a] xs.flatten := by
  cases xs with
  | nil => exact absurd rfl hne
  | cons x xs =>
    have key : ∀ (xs : List (List Tok)) (acc : List Tok), D [.n a] acc → (∀ x ∈ xs, D [.n b] x) → D [.n a] (acc ++ xs.flatten) := by
      intro xs
      induction xs with
      | nil => intro acc ha _; simpa using ha
      | cons y ys ih =>
        intro acc ha hy
        have := ih (acc ++ y) (D.prod ⟨a, [.n a, .n b]⟩ h2 (ha.cons (hy y (by simp)))) (fun z hz => hy z (by simp [hz]))
        simpa using this
    exact key xs x (D.prod ⟨a, [.n b]⟩ h1 (h x (by simp))) (fun z hz => h z (by simp [hz]))

/-- Lists with semicolons. -/
theorem D.semi (a : Nt) (b : Sym) (h1 : (okp ⟨a, [b]⟩) = true)
    (h2 : (okp ⟨a, [.n a, .t .SEMI, b]⟩) = true)
    {xs : List (List Tok)} (hne : xs ≠ []) (h : ∀ x ∈ xs, D [b] x) : D [.n a] (semiToks xs) := by
  cases xs with
  | nil => exact absurd rfl hne
  | cons x xs =>
    have key : ∀ (xs : List (List Tok)) (acc : List Tok), D [.n a] acc → (∀ x ∈ xs, D [b] x) →
        D [.n a] (semiToks (acc :: xs)) := by
      intro xs
      induction xs with
      | nil => intro acc ha _; exact ha
      | cons y ys ih =>
        intro acc ha hy
        have := ih (acc ++ ⟨Tm.SEMI.code, b!";"⟩ :: y)
          (D.prod ⟨a, [.n a, .t .SEMI, b]⟩ h2 (ha.cons ((D.tm _ _).cons (hy y (by simp))))) (fun z hz => hy z (by simp [hz]))
        cases ys with
        | nil => simpa [semiToks] using this
        | cons z zs => simpa [semiToks] using this
    exact key xs x (D.prod ⟨a, [b]⟩ h1 (h x (by simp))) (fun z hz => h z (by simp [hz]))

/-! ## Values -/

theorem char_symbol_derives (v : Bytes) : D [.n .char_symbol] [⟨Tm.CHAR.code, v⟩] ∧ D [.n .char_symbol] [⟨Tm.CHARSYMBOL.code, v⟩] :=
  ⟨D.prod ⟨.char_symbol, [.t .CHAR]⟩ (by decide +kernel) (D.tm _ _),
    D.prod ⟨.char_symbol, [.t .CHARSYMBOL]⟩ (by decide +kernel) (D.tm _ _)⟩

theorem char_list_derives {rs : List Nat} (hs : strOk rs = true) (h : rs ≠ []) : D [.n .char_list] (charToks rs) := by
  have := D.many .char_list .char_symbol (by decide +kernel) (by decide +kernel)
    (xs := (charToks rs).map fun t => [t]) (by simpa using (content_of_ok hs).ne h) (by
      intro x hx
      obtain ⟨⟨c, v⟩, ht, rfl⟩ := List.mem_map.mp hx
      rcases charToks_code rs _ ht with e | e | e | e <;> (dsimp only at e; subst e)
      · exact (char_symbol_derives _).1
      · exact D.prod ⟨.char_symbol, [.t .OCTAL_CHAR]⟩ (by decide +kernel) (D.tm _ _)
      · exact D.prod ⟨.char_symbol, [.t .HEX_CHAR]⟩ (by decide +kernel) (D.tm _ _)
      · exact D.prod ⟨.char_symbol, [.t .DECIMAL_CHAR]⟩ (by decide +kernel) (D.tm _ _))
  have e : ∀ ts : List Tok, (ts.map fun t => [t]).flatten = ts := by
    intro ts
    induction ts with
    | nil => rfl
    | cons r rs ih => simp only [List.map_cons, List.flatten_cons, ih]; rfl
  rwa [e] at this

theorem quotes_derive (a : Nt) (h1 : (okp ⟨a, [.t .DQUOTE, .n .char_list, .t .DQUOTE]⟩) = true) {rs : List Nat}
    (hs : strOk rs = true) (h : rs ≠ []) : D [.n a] (strToks rs) := by
  unfold strToks
  rw [if_neg h]
  exact D.prod ⟨a, [.t .DQUOTE, .n .char_list, .t .DQUOTE]⟩ h1 ((D.tm _ _).cons ((char_list_derives hs h).cons (D.tm _ _)))

theorem string_derives (a : Nt) (h1 : (okp ⟨a, [.t .DQUOTE, .n .char_list, .t .DQUOTE]⟩) = true)
    (h2 : (okp ⟨a, [.t .TWO_DOUBLE_QUOTE_STR]⟩) = true)
    {rs : List Nat} (hs : strOk rs = true) : D [.n a] (strToks rs) := by
  by_cases h : rs = []
  · subst h
    exact D.prod ⟨a, [.t .TWO_DOUBLE_QUOTE_STR]⟩ h2 (D.tm _ _)
  · exact quotes_derive a h1 hs h

theorem pair_derives (p : Bytes × Bytes) : D [.n .charconv_entry] (pairToks p) :=
  D.prod ⟨.charconv_entry, [.t .LPAREN, .n .char_symbol, .t .COMMA, .n .char_symbol, .t .RPAREN]⟩ (by decide +kernel)
    ((D.tm _ _).cons ((char_symbol_derives _).2.cons ((D.tm _ _).cons ((char_symbol_derives _).2.cons (D.tm _ _)))))

theorem atoi?_itoa {i : Int} (h : FitsInt i) : atoi? (itoa i) = some i := by
  have := C72_atoi_itoa i h.1 h.2
  simp [atoi?, this]

theorem itoa_no_semi (i : Int) : (59 : UInt8) ∉ itoa i := by
  intro h
  have := (itoa_spec i).1 _ h
  revert this
  decide

theorem group_derives {is : List Int} (hne : is ≠ []) (d : Def) :
    Derives [.n .mon_group_list] (semiToks (is.map fun i => [⟨Tm.NUMBER.code, itoa i⟩])) d [semis (is.map itoa)] d := by
  cases is with
  | nil => exact absurd rfl hne
  | cons x xs =>
    have key : ∀ (xs : List Int) (acc : List Tok) (ws : List Bytes), ws ≠ [] →
        Derives [.n .mon_group_list] acc d [semis ws] d →
        Derives [.n .mon_group_list] (semiToks (acc :: xs.map fun i => [⟨Tm.NUMBER.code, itoa i⟩])) d [semis (ws ++ xs.map itoa)] d := by
      intro xs
      induction xs with
      | nil => intro acc ws _ ha; simpa [semiToks] using ha
      | cons y ys ih =>
        intro acc ws hw ha
        have := ih (acc ++ [⟨Tm.SEMI.code, b!";"⟩, ⟨Tm.NUMBER.code, itoa y⟩]) (ws ++ [itoa y]) (by simp) (by
          rw [semis_snoc hw]
          exact Derives.one (p := ⟨.mon_group_list, [.n .mon_group_list, .t .SEMI, .t .NUMBER]⟩) (by decide +kernel)
            (ha.append (.tm .SEMI b!";" _ _ _ _ _ (.tm .NUMBER (itoa y) _ _ _ _ _ (.nil d))))
            (Means.semicolon _ _ _ _))
        cases ys with
        | nil => simpa [semiToks] using this
        | cons z zs => simpa [semiToks] using this
    have := key xs [⟨Tm.NUMBER.code, itoa x⟩] [itoa x] (by simp)
      (Derives.one (p := ⟨.mon_group_list, [.t .NUMBER]⟩) (by decide +kernel) (.tm .NUMBER (itoa x) _ _ _ _ _ (.nil d))
        (Means.first _ _ _))
    simpa using this

/-! ## Statements -/

/-- The nonterminal of a statement. -/
def Cat.kw : Cat → Nt
  | .ctype => .ctype_keyword
  | .monetary => .monetary_keyword
  | .numeric => .numeric_keyword
  | .time => .time_keyword
  | .messages => .messages_keyword

open Nt in
theorem ctype_table : (ctypeMap.all fun e => e.1 == b!"charclass" ||
    (e.2.2 == .charList && okp ⟨charclass_keyword, [.t e.2.1]⟩) ||
    (e.2.2 == .charPairList && okp ⟨charconv_keyword, [.t e.2.1]⟩)) = true := by
  decide +kernel

open Nt in
theorem monetary_table : (monetaryMap.all fun e =>
    (e.2.2 == .string && (okp ⟨mon_keyword_string, [.t e.2.1]⟩)) ||
    (e.2.2 == .int && (okp ⟨mon_keyword_char, [.t e.2.1]⟩)) ||
    (e.2.2 == .intList && (okp ⟨mon_keyword_grouping, [.t e.2.1]⟩))) = true := by
  decide +kernel

open Nt in
theorem numeric_table : (numericMap.all fun e =>
    (e.2.2 == .string && (okp ⟨num_keyword_string, [.t e.2.1]⟩)) ||
    (e.2.2 == .int && (okp ⟨num_keyword_grouping, [.t e.2.1]⟩))) = true := by
  decide +kernel

open Nt in
theorem time_table : (timeMap.all fun e =>
    (e.2.2 == .stringList && (okp ⟨time_keyword_name, [.t e.2.1]⟩)) ||
    (e.2.2 == .string && (okp ⟨time_keyword_fmt, [.t e.2.1]⟩)) ||
    ((e.2.2 == .stringList || e.2.2 == .string) && (okp ⟨time_keyword_opt, [.t e.2.1]⟩))) = true := by
  decide +kernel

theorem messages_table : (msgMap.all fun e =>
    (e.2.2 == .msg && (okp ⟨.messages_keyword, [.t e.2.1, .t .DQUOTE, .t .EXTENDED_REG_EXP, .t .DQUOTE, .t .EOL]⟩))) = true := by
  decide +kernel

theorem time_string_derives {rs : List Nat} (hs : strOk rs = true) (h : rs ≠ []) : D [.n .time_string] (strToks rs) :=
  quotes_derive .time_string (by decide +kernel) hs h

theorem line_derives (a k b : Nt) (h : (okp ⟨a, [.n k, .n b, .t .EOL]⟩) = true)
    {x : Tm} (hk : (okp ⟨k, [.t x]⟩) = true) (w : Bytes) {ts : List Tok} (hv : D [.n b] ts) (v : Bytes) :
    D [.n a] (⟨x.code, w⟩ :: (ts ++ [⟨Tm.EOL.code, v⟩])) :=
  D.prod ⟨a, [.n k, .n b, .t .EOL]⟩ h ((D.prod ⟨k, [.t x]⟩ hk (D.tm x w)).cons (hv.cons (D.tm _ _)))

theorem stmt_derives {c : Cat} {s : Stmt} (hs : s.WF c) (hw : s.word ≠ b!"charclass") (ha : s.val.Accepted c) :
    D [.n c.kw] s.toks := by
  have hm := hs.mem
  obtain ⟨-, -, -, -, hv⟩ := hs
  unfold Stmt.toks eolTok
  cases c with
  | ctype =>
    have := List.all_eq_true.mp ctype_table _ hm
    simp only [Bool.or_eq_true, Bool.and_eq_true, beq_iff_eq, hw, false_or] at this
    rcases this with ⟨h1, h2⟩ | ⟨h1, h2⟩
    · cases hval : s.val <;> rw [hval] at h1 hv <;> try (cases h1; done)
      rename_i ns
      refine line_derives .ctype_keyword .charclass_keyword .charclass_list (by decide +kernel) h2 _ ?_ _
      refine D.semi .charclass_list (.n .char_symbol) (by decide +kernel) (by decide +kernel) (by simpa using hv.1) ?_
      intro x hx
      obtain ⟨y, -, rfl⟩ := List.mem_map.mp hx
      exact (char_symbol_derives _).2
    · cases hval : s.val <;> rw [hval] at h1 hv <;> try (cases h1; done)
      rename_i ps
      refine line_derives .ctype_keyword .charconv_keyword .charconv_list (by decide +kernel) h2 _ ?_ _
      refine D.semi .charconv_list (.n .charconv_entry) (by decide +kernel) (by decide +kernel) (by simpa using hv.1) ?_
      intro x hx
      obtain ⟨y, -, rfl⟩ := List.mem_map.mp hx
      exact pair_derives _
  | monetary =>
    have := List.all_eq_true.mp monetary_table _ hm
    simp only [Bool.or_eq_true, Bool.and_eq_true, beq_iff_eq] at this
    rcases this with (⟨h1, h2⟩ | ⟨h1, h2⟩) | ⟨h1, h2⟩
    · cases hval : s.val <;> rw [hval] at h1 hv <;> try (cases h1; done)
      exact line_derives .monetary_keyword .mon_keyword_string .mon_string (by decide +kernel) h2 _
        (string_derives _ (by decide +kernel) (by decide +kernel) hv) _
    · cases hval : s.val <;> rw [hval] at h1 hv ha <;> try (cases h1; done)
      rename_i i
      intro d
      obtain ⟨vs, d', hk⟩ := D.prod ⟨.mon_keyword_char, [.t s.tm]⟩ h2 (D.tm s.tm s.word) d
      have hl := hk.length
      match vs, hl with
      | [k], _ =>
        exact ⟨_, _, Derives.one (p := ⟨.monetary_keyword, [.n .mon_keyword_char, .t .NUMBER, .t .EOL]⟩) (by decide +kernel)
          (hk.append (.tm .NUMBER (itoa i) _ _ _ _ _ (.tm .EOL _ _ _ _ _ _ (.nil _))))
          (Means.number _ _ _ _ i (atoi?_itoa ha))⟩
    · cases hval : s.val <;> rw [hval] at h1 hv ha <;> try (cases h1; done)
      rename_i is
      intro d
      obtain ⟨vs, d', hk⟩ := D.prod ⟨.mon_keyword_grouping, [.t s.tm]⟩ h2 (D.tm s.tm s.word) d
      have hl := hk.length
      match vs, hl with
      | [k], _ =>
        refine ⟨_, _, Derives.one (p := ⟨.monetary_keyword, [.n .mon_keyword_grouping, .n .mon_group_list, .t .EOL]⟩) (by decide +kernel)
          (hk.append ((group_derives hv _).append (.tm .EOL _ _ _ _ _ _ (.nil _))))
          (Means.grouping _ _ _ _ is ?_)⟩
        rw [split_semis (by simpa [Val.WF] using hv)]
        · rw [List.map_map]
          exact List.map_congr_left fun i hi => atoi?_itoa (ha i hi)
        · intro x hx
          obtain ⟨i, -, rfl⟩ := List.mem_map.mp hx
          exact itoa_no_semi i
  | numeric =>
    have := List.all_eq_true.mp numeric_table _ hm
    simp only [Bool.or_eq_true, Bool.and_eq_true, beq_iff_eq] at this
    rcases this with ⟨h1, h2⟩ | ⟨h1, h2⟩
    · cases hval : s.val <;> rw [hval] at h1 hv <;> try (cases h1; done)
      exact line_derives .numeric_keyword .num_keyword_string .num_string (by decide +kernel) h2 _
        (string_derives _ (by decide +kernel) (by decide +kernel) hv) _
    · cases hval : s.val <;> rw [hval] at h1 hv <;> try (cases h1; done)
      exact line_derives .numeric_keyword .num_keyword_grouping .num_group_list (by decide +kernel) h2 _
        (D.prod ⟨.num_group_list, [.t .NUMBER]⟩ (by decide +kernel) (D.tm _ _)) _
  | time =>
    have := List.all_eq_true.mp time_table _ hm
    simp only [Bool.or_eq_true, Bool.and_eq_true, beq_iff_eq] at this
    have lst : ∀ ss : List (List Nat), ss ≠ [] → (∀ s ∈ ss, strOk s = true) → (∀ s ∈ ss, s ≠ []) → D [.n .time_list] (semiToks (ss.map strToks)) := by
      intro ss hne ho hs
      refine D.semi .time_list (.n .time_string) (by decide +kernel) (by decide +kernel) (by simpa using hne) ?_
      intro x hx
      obtain ⟨y, hy, rfl⟩ := List.mem_map.mp hx
      exact time_string_derives (ho y hy) (hs y hy)
    rcases this with (⟨h1, h2⟩ | ⟨h1, h2⟩) | ⟨h1, h2⟩
    · cases hval : s.val <;> rw [hval] at h1 hv ha <;> try (cases h1; done)
      exact line_derives .time_keyword .time_keyword_name .time_list (by decide +kernel) h2 _ (lst _ hv.1 hv.2 (ha rfl)) _
    · cases hval : s.val <;> rw [hval] at h1 hv ha <;> try (cases h1; done)
      exact line_derives .time_keyword .time_keyword_fmt .time_string (by decide +kernel) h2 _ (time_string_derives hv (ha rfl)) _
    · cases hval : s.val <;> rw [hval] at h1 hv ha <;> try (rcases h1 with h1 | h1 <;> cases h1; done)
      · exact line_derives .time_keyword .time_keyword_opt .time_list (by decide +kernel) h2 _ (lst _ hv.1 hv.2 (ha rfl)) _
      · rename_i r
        exact line_derives .time_keyword .time_keyword_opt .time_list (by decide +kernel) h2 _
          (D.prod ⟨.time_list, [.n .time_string]⟩ (by decide +kernel) (time_string_derives hv (ha rfl))) _
  | messages =>
    have := List.all_eq_true.mp messages_table _ hm
    simp only [Bool.or_eq_true, Bool.and_eq_true, beq_iff_eq] at this
    obtain ⟨h1, h2⟩ := this
    cases hval : s.val <;> rw [hval] at h1 hv <;> try (cases h1; done)
    exact D.prod ⟨.messages_keyword, [.t s.tm, .t .DQUOTE, .t .EXTENDED_REG_EXP, .t .DQUOTE, .t .EOL]⟩ h2
      ((D.tm _ _).cons ((D.tm _ _).cons ((D.tm _ _).cons ((D.tm _ _).cons (D.tm _ _)))))

/-! ## Sections and files -/

open Nt in
/-- The nonterminals of a section: the section, header, statements, end. -/
def Cat.nts : Cat → Nt × Nt × Nt × Nt
  | .ctype => (lc_ctype, ctype_hdr, ctype_keywords, ctype_tlr)
  | .monetary => (lc_monetary, monetary_hdr, monetary_keywords, monetary_tlr)
  | .numeric => (lc_numeric, numeric_hdr, numeric_keywords, numeric_tlr)
  | .time => (lc_time, time_hdr, time_keywords, time_tlr)
  | .messages => (lc_messages, messages_hdr, messages_keywords, messages_tlr)

theorem nts_table (c : Cat) :
    let ok := okp
    ok ⟨.locale_category, [.n c.nts.1]⟩ = true ∧
    ok ⟨c.nts.1, [.n c.nts.2.1, .n c.nts.2.2.1, .n c.nts.2.2.2]⟩ = true ∧
    ok ⟨c.nts.2.1, [.t c.tm, .t .EOL]⟩ = true ∧
    ok ⟨c.nts.2.2.1, [.n c.kw]⟩ = true ∧
    ok ⟨c.nts.2.2.1, [.n c.nts.2.2.1, .n c.kw]⟩ = true ∧
    ok ⟨c.nts.2.2.2, [.t .END_STR, .t c.tm, .t .EOL]⟩ = true := by
  cases c <;> decide +kernel

theorem section_derives {s : Section} (hs : s.WF) (ha : s.Accepted) : D [.n .locale_category] s.toks := by
  obtain ⟨t1, t2, t3, t4, t5, t6⟩ := nts_table s.cat
  refine D.prod ⟨.locale_category, [.n s.cat.nts.1]⟩ t1 (D.prod ⟨s.cat.nts.1, [.n s.cat.nts.2.1, .n s.cat.nts.2.2.1, .n s.cat.nts.2.2.2]⟩ t2 ?_)
  have e : s.toks = [⟨s.cat.tm.code, s.cat.name⟩, eolTok s.after] ++ ((s.stmts.map Stmt.toks).flatten ++
      [⟨Tm.END_STR.code, b!"END"⟩, ⟨s.cat.tm.code, s.cat.name⟩, eolTok s.endAfter]) := by
    simp [Section.toks, List.flatMap_def]
  rw [e]
  refine (D.prod ⟨s.cat.nts.2.1, [.t s.cat.tm, .t .EOL]⟩ t3 ((D.tm _ _).cons (D.tm _ _))).cons (D.cons ?_ ?_)
  · refine D.many _ _ t4 t5 (by simpa using ha.1) ?_
    intro x hx
    obtain ⟨y, hy, rfl⟩ := List.mem_map.mp hx
    exact stmt_derives (hs.1 y hy) (ha.2 y hy).1 (ha.2 y hy).2
  · exact D.prod ⟨s.cat.nts.2.2.2, [.t .END_STR, .t s.cat.tm, .t .EOL]⟩ t6 ((D.tm _ _).cons ((D.tm _ _).cons (D.tm _ _)))

theorem file_derives {f : List Section} (hne : f ≠ []) (hs : ∀ s ∈ f, s.WF) (ha : ∀ s ∈ f, s.Accepted) :
    D [.n .locale_definition] (f.flatMap Section.toks) := by
  refine D.prod ⟨.locale_definition, [.n .locale_categories]⟩ (by decide +kernel) ?_
  rw [List.flatMap_def]
  refine D.many .locale_categories .locale_category (by decide +kernel) (by decide +kernel) (by simpa using hne) ?_
  intro x hx
  obtain ⟨y, hy, rfl⟩ := List.mem_map.mp hx
  exact section_derives (hs y hy) (ha y hy)

end Locale
