import Verif.Locale.ParserExact

/-!
# What an accepted token stream defines

C58, second part.
-/

namespace Locale
open Go

/-! ## Specification -/

/-- The keywords with a string in a monetary section. -/
def stringKeywords : List Tm :=
  [.INT_CURR_SYMBOL_STR, .CURRENCY_SYMBOL_STR, .MON_DECIMAL_POINT_STR, .MON_THOUSANDS_SEP_STR, .POSITIVE_SIGN_STR,
   .NEGATIVE_SIGN_STR]

/-- The texts of the numbers in a line. -/
def numbers (line : List Tok) : List Bytes := (line.filter (fun t => t.code == Tm.NUMBER.code)).map Tok.val

/-- The text after a keyword: a single token as it is (that is, with its two quotes), else what is between the quotes. -/
def quoted : List Tok → Bytes
  | [t] => t.val
  | ts => (ts.tail.dropLast.map Tok.val).flatten

/-- What a line defines. -/
def stmt (d : Def) : List Tok → Def
  | [] => d
  | k :: line =>
    if k.code = Tm.MON_GROUPING_STR.code then { d with monGrouping := (numbers line).map fun v => (atoi? v).getD 0 }
    else if k.code ∈ stringKeywords.map Tm.code ∧ k.val = b!"int_curr_symbol" then { d with intCurrSymbol := quoted line }
    else d

/-- The token stream cut into lines at the end-of-line tokens; a rest without one is left out. -/
def tokLines : List Tok → List Tok → List (List Tok)
  | _, [] => []
  | cur, t :: ts => if t.code = Tm.EOL.code then cur :: tokLines [] ts else tokLines (cur ++ [t]) ts

/-! ## Reading a line at a time -/

/-- One more token: the line so far and the definitions. -/
def feed (st : List Tok × Def) (t : Tok) : List Tok × Def :=
  if t.code = Tm.EOL.code then ([], stmt st.2 st.1) else (st.1 ++ [t], st.2)

theorem feed_lines (cur : List Tok) (d : Def) (ts : List Tok) :
    (ts.foldl feed (cur, d)).2 = (tokLines cur ts).foldl stmt d := by
  induction ts generalizing cur d with
  | nil => rfl
  | cons t ts ih =>
    simp only [List.foldl_cons, tokLines, feed]
    split
    · rw [ih]; rfl
    · rw [ih]

/-- The tokens that start a line with an effect. -/
def dangerous (c : Int) : Bool := c == Tm.MON_GROUPING_STR.code || (stringKeywords.map Tm.code).contains c

/-- A line so far that will have no effect. -/
def harmless : List Tok → Bool
  | [] => true
  | k :: _ => !dangerous k.code

theorem stmt_harmless {cur : List Tok} (h : harmless cur = true) (d : Def) : stmt d cur = d := by
  cases cur with
  | nil => rfl
  | cons k l =>
    simp only [harmless, dangerous, Bool.not_eq_true', Bool.or_eq_false_iff, beq_eq_false_iff_ne,
      List.contains_eq_mem, decide_eq_false_iff_not] at h
    simp only [stmt]
    rw [if_neg h.1, if_neg (fun hh => h.2 hh.1)]

theorem harmless_append {cur : List Tok} (h : harmless cur = true) {t : Tok} (ht : dangerous t.code = false) :
    harmless (cur ++ [t]) = true := by
  cases cur with
  | nil => simp [harmless, ht]
  | cons k l => simpa [harmless] using h

theorem feed_safe {ts : List Tok} (h : ∀ t ∈ ts, dangerous t.code = false) {cur : List Tok} (hc : harmless cur = true) (d : Def) :
    ∃ cur', ts.foldl feed (cur, d) = (cur', d) ∧ harmless cur' = true := by
  induction ts generalizing cur with
  | nil => exact ⟨cur, rfl, hc⟩
  | cons t ts ih =>
    simp only [List.foldl_cons, feed]
    split
    · rw [stmt_harmless hc]
      exact ih (fun t ht => h t (by simp [ht])) rfl
    · exact ih (fun t ht => h t (by simp [ht])) (harmless_append hc (h t (by simp)))

theorem feed_safe_line {ts : List Tok} {v : Bytes} (h : ∀ t ∈ ts, dangerous t.code = false) {cur : List Tok}
    (hc : harmless cur = true) (d : Def) : (ts ++ [(⟨Tm.EOL.code, v⟩ : Tok)]).foldl feed (cur, d) = ([], d) := by
  obtain ⟨cur', h1, h2⟩ := feed_safe h hc d
  rw [List.foldl_append, h1]
  simp [feed, stmt_harmless h2]

theorem feed_line {ts : List Tok} (h : ∀ t ∈ ts, t.code ≠ Tm.EOL.code) (v : Bytes) (cur : List Tok) (d : Def) :
    (ts ++ [(⟨Tm.EOL.code, v⟩ : Tok)]).foldl feed (cur, d) = ([], stmt d (cur ++ ts)) := by
  induction ts generalizing cur with
  | nil => simp [feed]
  | cons t ts ih =>
    simp only [List.cons_append, List.foldl_cons]
    rw [show feed (cur, d) t = (cur ++ [t], d) by simp [feed, h t (by simp)]]
    rw [ih (fun t ht => h t (by simp [ht]))]
    simp

/-! ## Kinds of symbols -/

open Nt in
/-- The nonterminals with monetary statements in them. -/
def monNts : List Nt := [locale_definition, locale_categories, locale_category, lc_monetary, monetary_keywords, monetary_keyword]

open Nt in
/-- The keywords of monetary statements. -/
def kwNts : List Nt := [mon_keyword_string, mon_keyword_grouping]

/-- Derives no token that starts a line with an effect. -/
def safe : Sym → Bool
  | .t x => !dangerous x.code
  | .n x => !(monNts.contains x || kwNts.contains x)

open Nt in
/-- The safe nonterminals whose text ends with an end of line and that occur next to monetary statements. -/
def endNts : List Nt :=
  [global_statements, symbol_redefine, lc_ctype, lc_collate, lc_messages, lc_numeric, lc_time, ctype_tlr, collate_tlr,
   messages_tlr, numeric_tlr, time_tlr, monetary_hdr, monetary_tlr]

/-- The text ends with an end of line. -/
def endsE : Sym → Bool
  | .t x => x == .EOL
  | .n x => endNts.contains x

/-- Whether the line is known to be empty, after a symbol. -/
def trans (isE : Bool) (x : Sym) : Option Bool :=
  if (match x with | .n a => monNts.contains a | _ => false) then (if isE then some true else none)
  else if safe x then some (endsE x) else none

/-- The same for several symbols. -/
def sim : Bool → List Sym → Bool
  | isE, [] => isE
  | isE, x :: xs => match trans isE x with
    | some b => sim b xs
    | none => false

theorem safe_ok : (grammar.all fun p =>
    !safe (.n p.lhs) || (p.rhs.all safe && !([Action.storeString, .checkNumber, .minusOne, .storeGrouping].contains p.action))) = true := by
  decide +kernel

theorem ends_ok : (grammar.all fun p =>
    !endNts.contains p.lhs || (match p.rhs.getLast? with
      | some x => endsE x
      | none => false)) = true := by decide +kernel

theorem sim_ok : (grammar.all fun p =>
    !monNts.contains p.lhs || (p.lhs == .monetary_keyword || (sim true p.rhs && p.action == .first))) = true := by decide +kernel

theorem means_same {a vs d v d'} (h : Means a vs d v d')
    (ha : ([Action.storeString, .checkNumber, .minusOne, .storeGrouping].contains a) = false) : d' = d := by
  cases h <;> simp_all

theorem safe_spec {ss ts d vs d'} (h : Derives ss ts d vs d') (hs : ss.all safe = true) :
    d' = d ∧ ∀ t ∈ ts, dangerous t.code = false := by
  induction h with
  | nil d => exact ⟨rfl, by simp⟩
  | tm x v ss ts d d' vs _ ih =>
    simp only [List.all_cons, Bool.and_eq_true, safe, Bool.not_eq_true'] at hs
    obtain ⟨i1, i2⟩ := ih hs.2
    refine ⟨i1, fun t ht => ?_⟩
    rcases List.mem_cons.mp ht with rfl | ht
    · exact hs.1
    · exact i2 t ht
  | nt p hp ts ts1 d d1 d2 d3 us v ss vs h hm _ ih1 ih2 =>
    simp only [List.all_cons, Bool.and_eq_true] at hs
    have := List.all_eq_true.mp safe_ok p hp
    simp only [hs.1, Bool.not_true, Bool.false_or, Bool.and_eq_true, Bool.not_eq_true'] at this
    obtain ⟨i1, i2⟩ := ih1 this.1
    obtain ⟨j1, j2⟩ := ih2 hs.2
    refine ⟨by rw [j1, means_same hm this.2, i1], fun t ht => ?_⟩
    rcases List.mem_append.mp ht with ht | ht
    · exact i2 t ht
    · exact j2 t ht

theorem ends_spec {ss ts d vs d'} (h : Derives ss ts d vs d') {x : Sym} (hx : ss.getLast? = some x) (he : endsE x = true) :
    ∃ ts' v, ts = ts' ++ [⟨Tm.EOL.code, v⟩] := by
  induction h generalizing x with
  | nil d => simp at hx
  | tm y v ss ts d d' vs h ih =>
    cases ss with
    | nil =>
      simp only [List.getLast?_singleton, Option.some.injEq] at hx
      subst hx
      simp only [endsE, beq_iff_eq] at he
      subst he
      cases h
      exact ⟨[], v, rfl⟩
    | cons z ss =>
      rw [List.getLast?_cons_cons] at hx
      obtain ⟨ts', v', rfl⟩ := ih hx he
      exact ⟨_ :: ts', v', rfl⟩
  | nt p hp ts ts1 d d1 d2 d3 us v ss vs h hm h' ih1 ih2 =>
    cases ss with
    | nil =>
      simp only [List.getLast?_singleton, Option.some.injEq] at hx
      subst hx
      simp only [endsE] at he
      have := List.all_eq_true.mp ends_ok p hp
      simp only [he, Bool.not_true, Bool.false_or] at this
      split at this
      · rename_i y hy
        cases h'
        obtain ⟨ts', v', rfl⟩ := ih1 hy this
        exact ⟨ts', v', by simp⟩
      · cases this
    | cons z ss =>
      rw [List.getLast?_cons_cons] at hx
      obtain ⟨ts', v', rfl⟩ := ih2 hx he
      exact ⟨ts ++ ts', v', by simp⟩

/-! ## Inversion -/

theorem Derives.cons_inv {x ss ts d vs d'} (h : Derives (x :: ss) ts d vs d') :
    ∃ ts1 ts2 v vs' d1, ts = ts1 ++ ts2 ∧ vs = v :: vs' ∧ Derives [x] ts1 d [v] d1 ∧ Derives ss ts2 d1 vs' d' := by
  cases h with
  | tm x v ss ts d d' vs h => exact ⟨[_], ts, v, vs, d, rfl, rfl, .tm x v _ _ _ _ _ (.nil _), h⟩
  | nt p hp ts ts1 d d1 d2 d3 us v ss vs h hm h' =>
    refine ⟨ts, ts1, v, vs, d2, rfl, rfl, ?_, h'⟩
    have := Derives.nt p hp ts [] d d1 d2 d2 us v [] [] h hm (.nil _)
    simpa using this

theorem Derives.nil_inv {ts d vs d'} (h : Derives [] ts d vs d') : ts = [] ∧ vs = [] ∧ d' = d := by
  cases h; exact ⟨rfl, rfl, rfl⟩

theorem Derives.tm_inv {x ts d v d'} (h : Derives [.t x] ts d [v] d') : ts = [⟨x.code, v⟩] ∧ d' = d := by
  cases h with
  | tm x v ss ts d d' vs h => cases h; exact ⟨rfl, rfl⟩

theorem Derives.nt_inv {a ts d v d'} (h : Derives [.n a] ts d [v] d') :
    ∃ p ∈ grammar.filter (fun p => p.lhs == a), ∃ us d1, Derives p.rhs ts d us d1 ∧ Means p.action us d1 v d' := by
  generalize hss : [Sym.n a] = ss at h
  cases h with
  | tm x v ss ts d d' vs h => cases hss
  | nt p hp ts ts1 d d1 d2 d3 us v ss vs h hm h' =>
    simp only [List.cons.injEq, Sym.n.injEq] at hss
    obtain ⟨rfl, rfl⟩ := hss
    cases h'
    refine ⟨p, by simp [hp], us, d1, by simpa using h, hm⟩

open Tm Nt Sym in
theorem of_mon_string : grammar.filter (fun p => p.lhs == mon_string) =
    [⟨mon_string, [t DQUOTE, n char_list, t DQUOTE]⟩, ⟨mon_string, [t TWO_DOUBLE_QUOTE_STR]⟩] := by decide +kernel

open Tm Nt Sym in
theorem of_mon_group_list : grammar.filter (fun p => p.lhs == mon_group_list) =
    [⟨mon_group_list, [t NUMBER]⟩, ⟨mon_group_list, [n mon_group_list, t SEMI, t NUMBER]⟩] := by decide +kernel

open Tm Nt Sym in
theorem of_mon_keyword_grouping : grammar.filter (fun p => p.lhs == mon_keyword_grouping) =
    [⟨mon_keyword_grouping, [t MON_GROUPING_STR]⟩] := by decide +kernel

theorem of_mon_keyword_string : grammar.filter (fun p => p.lhs == .mon_keyword_string) =
    stringKeywords.map fun x => ⟨.mon_keyword_string, [.t x]⟩ := by decide +kernel

open Tm Nt Sym in
theorem of_monetary_keyword : grammar.filter (fun p => p.lhs == monetary_keyword) =
    [⟨monetary_keyword, [n mon_keyword_string, n mon_string, t EOL]⟩, ⟨monetary_keyword, [n mon_keyword_char, t NUMBER, t EOL]⟩,
     ⟨monetary_keyword, [n mon_keyword_char, t NEGATIVE_ONE_STR, t EOL]⟩,
     ⟨monetary_keyword, [n mon_keyword_grouping, n mon_group_list, t EOL]⟩] := by decide +kernel

/-! ## Texts of strings and lists -/

open Tm Nt in
/-- The symbols in a string. -/
def charSym : Sym → Bool
  | .t x => [CHAR, CHARSYMBOL, OCTAL_CHAR, HEX_CHAR, DECIMAL_CHAR].contains x
  | .n x => [char_list, char_symbol].contains x

theorem charSym_ok : (grammar.all fun p =>
    !charSym (.n p.lhs) || (p.rhs.all charSym && (p.action == .concat || (p.action == .first && p.rhs.length == 1)))) = true := by
  decide +kernel

theorem char_code_ok : (Tm.list.all fun x => !charSym (.t x) || decide (x.code ≠ Tm.EOL.code)) = true := by decide +kernel

theorem char_spec {ss ts d vs d'} (h : Derives ss ts d vs d') (hs : ss.all charSym = true) :
    vs.flatten = (ts.map Tok.val).flatten ∧ d' = d ∧ ∀ t ∈ ts, t.code ≠ Tm.EOL.code := by
  induction h with
  | nil d => simp
  | tm x v ss ts d d' vs _ ih =>
    simp only [List.all_cons, Bool.and_eq_true] at hs
    obtain ⟨i1, i2, i3⟩ := ih hs.2
    refine ⟨by simp [i1], i2, fun t ht => ?_⟩
    rcases List.mem_cons.mp ht with rfl | ht
    · have := List.all_eq_true.mp char_code_ok x (List.mem_of_getElem? (Tm.list_get x))
      simpa [hs.1] using this
    · exact i3 t ht
  | nt p hp ts ts1 d d1 d2 d3 us v ss vs h hm _ ih1 ih2 =>
    simp only [List.all_cons, Bool.and_eq_true] at hs
    have := List.all_eq_true.mp charSym_ok p hp
    simp only [hs.1, Bool.not_true, Bool.false_or, Bool.and_eq_true, Bool.or_eq_true, beq_iff_eq] at this
    obtain ⟨i1, i2, i3⟩ := ih1 this.1
    obtain ⟨j1, j2, j3⟩ := ih2 hs.2
    have hv : v = us.flatten ∧ d2 = d1 := by
      rcases this.2 with ha | ⟨ha, hl⟩
      · rw [ha] at hm
        cases hm
        exact ⟨by simp, rfl⟩
      · rw [ha] at hm
        have hlen := h.length
        rw [hl] at hlen
        cases hm with
        | first v us d => cases us with
          | nil => exact ⟨by simp, rfl⟩
          | cons u us => simp at hlen
        | empty v d => simp at hlen
    refine ⟨by simp [hv.1, i1, j1], by rw [j2, hv.2, i2], fun t ht => ?_⟩
    rcases List.mem_append.mp ht with ht | ht
    · exact i3 t ht
    · exact j3 t ht

theorem mon_string_spec {ts d v d'} (h : Derives [.n .mon_string] ts d [v] d') :
    quoted ts = v ∧ d' = d ∧ ∀ t ∈ ts, t.code ≠ Tm.EOL.code := by
  obtain ⟨p, hp, us, d1, h1, hm⟩ := h.nt_inv
  rw [of_mon_string] at hp
  simp only [List.mem_cons, List.not_mem_nil, or_false] at hp
  rcases hp with rfl | rfl
  · obtain ⟨t1, _, v1, _, d2, rfl, rfl, q1, h1⟩ := h1.cons_inv
    obtain ⟨t2, _, v2, _, d3, rfl, rfl, q2, h1⟩ := h1.cons_inv
    obtain ⟨t3, _, v3, _, d4, rfl, rfl, q3, h1⟩ := h1.cons_inv
    obtain ⟨rfl, rfl, rfl⟩ := h1.nil_inv
    obtain ⟨rfl, rfl⟩ := q1.tm_inv
    obtain ⟨rfl, rfl⟩ := q3.tm_inv
    obtain ⟨c1, rfl, c3⟩ := char_spec q2 rfl
    have ha : (⟨.mon_string, [.t .DQUOTE, .n .char_list, .t .DQUOTE]⟩ : Prod).action = .unquote := by decide +kernel
    rw [ha] at hm
    cases hm
    refine ⟨?_, rfl, ?_⟩
    · simp only [List.flatten_cons, List.flatten_nil, List.append_nil] at c1
      rw [c1]
      cases t2 with
      | nil => rfl
      | cons a t2 =>
        simp only [List.cons_append, List.nil_append, quoted, List.append_nil, List.tail_cons]
        rw [← List.cons_append, List.dropLast_append_of_ne_nil (by simp)]
        simp
    · intro t ht
      simp only [List.append_nil, List.mem_append, List.mem_singleton] at ht
      rcases ht with rfl | ht | rfl
      · simp only; decide +kernel
      · exact c3 t ht
      · simp only; decide +kernel
  · obtain ⟨t1, _, v1, _, d2, rfl, rfl, q1, h1⟩ := h1.cons_inv
    obtain ⟨rfl, rfl, rfl⟩ := h1.nil_inv
    obtain ⟨rfl, rfl⟩ := q1.tm_inv
    have ha : (⟨.mon_string, [.t .TWO_DOUBLE_QUOTE_STR]⟩ : Prod).action = .first := by decide +kernel
    rw [ha] at hm
    cases hm
    refine ⟨rfl, rfl, ?_⟩
    intro t ht
    simp only [List.append_nil, List.mem_singleton] at ht
    subst ht
    simp only; decide +kernel

/-- Texts with semicolons between. -/
def semis : List Bytes → Bytes
  | [] => []
  | [x] => x
  | x :: y :: r => x ++ 59 :: semis (y :: r)

theorem semis_snoc {xs : List Bytes} (h : xs ≠ []) (y : Bytes) : semis (xs ++ [y]) = semis xs ++ b!";" ++ y := by
  induction xs with
  | nil => exact absurd rfl h
  | cons x xs ih =>
    cases xs with
    | nil => simp [semis]
    | cons z zs =>
      have := ih (by simp)
      simp only [List.cons_append] at this
      simp only [List.cons_append, semis, this, List.append_assoc]

theorem numbers_append (a b : List Tok) : numbers (a ++ b) = numbers a ++ numbers b := by
  simp [numbers, List.filter_append]

theorem group_spec (n : Nat) {ts d v d'} (hn : ts.length ≤ n) (h : Derives [.n .mon_group_list] ts d [v] d') :
    v = semis (numbers ts) ∧ numbers ts ≠ [] ∧ d' = d ∧ ∀ t ∈ ts, t.code ≠ Tm.EOL.code := by
  induction n generalizing ts d v d' with
  | zero =>
    obtain ⟨p, hp, us, d1, h1, hm⟩ := h.nt_inv
    rw [of_mon_group_list] at hp
    simp only [List.mem_cons, List.not_mem_nil, or_false] at hp
    rcases hp with rfl | rfl
    · obtain ⟨t1, _, v1, _, d2, rfl, rfl, q1, h1⟩ := h1.cons_inv
      obtain ⟨rfl, rfl⟩ := q1.tm_inv
      simp at hn
    · obtain ⟨t1, _, v1, _, d2, rfl, rfl, q1, h1⟩ := h1.cons_inv
      obtain ⟨t2, _, v2, _, d3, rfl, rfl, q2, h1⟩ := h1.cons_inv
      obtain ⟨rfl, rfl⟩ := q2.tm_inv
      simp at hn
  | succ n ih =>
    obtain ⟨p, hp, us, d1, h1, hm⟩ := h.nt_inv
    rw [of_mon_group_list] at hp
    simp only [List.mem_cons, List.not_mem_nil, or_false] at hp
    rcases hp with rfl | rfl
    · obtain ⟨t1, _, v1, _, d2, rfl, rfl, q1, h1⟩ := h1.cons_inv
      obtain ⟨rfl, rfl, rfl⟩ := h1.nil_inv
      obtain ⟨rfl, rfl⟩ := q1.tm_inv
      have ha : (⟨.mon_group_list, [.t .NUMBER]⟩ : Prod).action = .first := by decide +kernel
      rw [ha] at hm
      cases hm
      refine ⟨by simp [numbers, semis], by simp [numbers], rfl, ?_⟩
      intro t ht
      simp only [List.append_nil, List.mem_singleton] at ht
      subst ht
      simp only; decide +kernel
    · obtain ⟨t1, _, v1, _, d2, rfl, rfl, q1, h1⟩ := h1.cons_inv
      obtain ⟨t2, _, v2, _, d3, rfl, rfl, q2, h1⟩ := h1.cons_inv
      obtain ⟨t3, _, v3, _, d4, rfl, rfl, q3, h1⟩ := h1.cons_inv
      obtain ⟨rfl, rfl, rfl⟩ := h1.nil_inv
      obtain ⟨rfl, rfl⟩ := q2.tm_inv
      obtain ⟨rfl, rfl⟩ := q3.tm_inv
      obtain ⟨rfl, i2, rfl, i4⟩ := ih (by simp at hn; omega) q1
      have ha : (⟨.mon_group_list, [.n .mon_group_list, .t .SEMI, .t .NUMBER]⟩ : Prod).action = .semicolon := by decide +kernel
      rw [ha] at hm
      cases hm
      have hnum : numbers (t1 ++ ([⟨Tm.SEMI.code, v2⟩] ++ ([⟨Tm.NUMBER.code, v3⟩] ++ []))) = numbers t1 ++ [v3] := by
        rw [numbers_append, numbers_append]
        have : numbers [⟨Tm.SEMI.code, v2⟩] = [] := by
          simp only [numbers]
          rw [List.filter_cons_of_neg (by simp only; decide +kernel)]
          rfl
        rw [this]
        simp [numbers]
      rw [hnum]
      refine ⟨(semis_snoc i2 v3).symm, by simp, rfl, ?_⟩
      intro t ht
      simp only [List.append_nil, List.mem_append, List.mem_singleton] at ht
      rcases ht with ht | rfl | rfl
      · exact i4 t ht
      · simp only; decide +kernel
      · simp only; decide +kernel

theorem semis_join (xs : List Bytes) : semis xs = join b!";" xs := by
  induction xs with
  | nil => rfl
  | cons x xs ih =>
    cases xs with
    | nil => rfl
    | cons y ys => simp only [semis, join, ih]; simp

theorem split_semis {xs : List Bytes} (h : xs ≠ []) (hs : ∀ x ∈ xs, 59 ∉ x) : split (semis xs) b!";" = xs := by
  rw [semis_join]
  exact split_join_byte 59 xs h hs

/-! ## A monetary statement -/

theorem map_getD {xs : List Bytes} {is : List Int} (h : xs.map atoi? = is.map some) :
    (xs.map fun v => (atoi? v).getD 0) = is := by
  induction xs generalizing is with
  | nil => cases is <;> simp_all
  | cons x xs ih =>
    cases is with
    | nil => simp at h
    | cons i is =>
      simp only [List.map_cons, List.cons.injEq] at h
      simp [h.1, ih h.2]

theorem string_codes_ok : (stringKeywords.all fun x =>
    decide (x.code ≠ Tm.MON_GROUPING_STR.code ∧ x.code ≠ Tm.EOL.code)) = true := by decide +kernel

theorem num_char_ok : ([Sym.n Nt.mon_keyword_char, .t .NUMBER, .t .EOL].all safe = true) ∧
    ([Sym.n Nt.mon_keyword_char, .t .NEGATIVE_ONE_STR, .t .EOL].all safe = true) := by decide +kernel

theorem statement_spec {ts d us d1 v d2} {p : Prod} (hp : p ∈ grammar) (hl : p.lhs = .monetary_keyword)
    (h : Derives p.rhs ts d us d1) (hm : Means p.action us d1 v d2)
    (hsemi : ∀ t ∈ ts, t.code = Tm.NUMBER.code → 59 ∉ t.val) :
    ts.foldl feed ([], d) = ([], d2) := by
  have hp' : p ∈ grammar.filter (fun p => p.lhs == .monetary_keyword) := by simp [hp, hl]
  rw [of_monetary_keyword] at hp'
  simp only [List.mem_cons, List.not_mem_nil, or_false] at hp'
  rcases hp' with rfl | rfl | rfl | rfl
  · obtain ⟨t1, _, v1, _, e1, rfl, rfl, q1, h⟩ := h.cons_inv
    obtain ⟨t2, _, v2, _, e2, rfl, rfl, q2, h⟩ := h.cons_inv
    obtain ⟨t3, _, v3, _, e3, rfl, rfl, q3, h⟩ := h.cons_inv
    obtain ⟨rfl, rfl, rfl⟩ := h.nil_inv
    obtain ⟨rfl, rfl⟩ := q3.tm_inv
    obtain ⟨p', hp', us', f1, k1, km⟩ := q1.nt_inv
    rw [of_mon_keyword_string] at hp'
    obtain ⟨x, hx, rfl⟩ := List.mem_map.mp hp'
    obtain ⟨t4, _, v4, _, e4, rfl, rfl, q4, k1⟩ := k1.cons_inv
    obtain ⟨rfl, rfl, rfl⟩ := k1.nil_inv
    obtain ⟨rfl, rfl⟩ := q4.tm_inv
    have ha : (⟨.mon_keyword_string, [.t x]⟩ : Prod).action = .first := by
      have : (stringKeywords.all fun x => (⟨.mon_keyword_string, [.t x]⟩ : Prod).action == .first) = true := by decide +kernel
      simpa using List.all_eq_true.mp this x hx
    rw [ha] at km
    cases km
    obtain ⟨c1, rfl, c3⟩ := mon_string_spec q2
    have hxc := List.all_eq_true.mp string_codes_ok x hx
    simp only [decide_eq_true_eq] at hxc
    have ha : (⟨.monetary_keyword, [.n .mon_keyword_string, .n .mon_string, .t .EOL]⟩ : Prod).action = .storeString := by
      decide +kernel
    rw [ha] at hm
    have hb : ∀ t ∈ (⟨x.code, v1⟩ : Tok) :: t2, t.code ≠ Tm.EOL.code := by
      intro t ht
      rcases List.mem_cons.mp ht with rfl | ht
      · exact hxc.2
      · exact c3 t ht
    have := feed_line hb v3 [] d1
    simp only [List.nil_append, List.cons_append, stmt] at this
    rw [if_neg hxc.1] at this
    simp only [List.append_nil, List.cons_append, List.nil_append]
    rw [this]
    have hmem : x.code ∈ stringKeywords.map Tm.code := List.mem_map.mpr ⟨x, hx, rfl⟩
    cases hm with
    | currency => rw [if_pos ⟨hmem, rfl⟩, c1]
    | otherString _ _ _ _ hk => rw [if_neg (fun hh => hk hh.2)]
  · obtain ⟨rfl, hs⟩ := safe_spec h num_char_ok.1
    obtain ⟨ts', v', rfl⟩ := ends_spec h (x := .t .EOL) rfl rfl
    have ha : (⟨.monetary_keyword, [.n .mon_keyword_char, .t .NUMBER, .t .EOL]⟩ : Prod).action = .checkNumber := by
      decide +kernel
    rw [ha] at hm
    cases hm
    exact feed_safe_line (fun t ht => hs t (by simp [ht])) rfl _
  · obtain ⟨rfl, hs⟩ := safe_spec h num_char_ok.2
    obtain ⟨ts', v', rfl⟩ := ends_spec h (x := .t .EOL) rfl rfl
    have ha : (⟨.monetary_keyword, [.n .mon_keyword_char, .t .NEGATIVE_ONE_STR, .t .EOL]⟩ : Prod).action = .minusOne := by
      decide +kernel
    rw [ha] at hm
    cases hm
    exact feed_safe_line (fun t ht => hs t (by simp [ht])) rfl _
  · obtain ⟨t1, _, v1, _, e1, rfl, rfl, q1, h⟩ := h.cons_inv
    obtain ⟨t2, _, v2, _, e2, rfl, rfl, q2, h⟩ := h.cons_inv
    obtain ⟨t3, _, v3, _, e3, rfl, rfl, q3, h⟩ := h.cons_inv
    obtain ⟨rfl, rfl, rfl⟩ := h.nil_inv
    obtain ⟨rfl, rfl⟩ := q3.tm_inv
    obtain ⟨p', hp', us', f1, k1, km⟩ := q1.nt_inv
    rw [of_mon_keyword_grouping] at hp'
    simp only [List.mem_cons, List.not_mem_nil, or_false] at hp'
    subst hp'
    obtain ⟨t4, _, v4, _, e4, rfl, rfl, q4, k1⟩ := k1.cons_inv
    obtain ⟨rfl, rfl, rfl⟩ := k1.nil_inv
    obtain ⟨rfl, rfl⟩ := q4.tm_inv
    have ha : (⟨.mon_keyword_grouping, [.t .MON_GROUPING_STR]⟩ : Prod).action = .first := by decide +kernel
    rw [ha] at km
    cases km
    obtain ⟨c1, c2, rfl, c3⟩ := group_spec _ (Nat.le_refl _) q2
    have ha : (⟨.monetary_keyword, [.n .mon_keyword_grouping, .n .mon_group_list, .t .EOL]⟩ : Prod).action = .storeGrouping := by
      decide +kernel
    rw [ha] at hm
    have hb : ∀ t ∈ (⟨Tm.MON_GROUPING_STR.code, v1⟩ : Tok) :: t2, t.code ≠ Tm.EOL.code := by
      intro t ht
      rcases List.mem_cons.mp ht with rfl | ht
      · simp only; decide +kernel
      · exact c3 t ht
    have := feed_line hb v3 [] d1
    simp only [List.nil_append, List.cons_append, stmt] at this
    rw [if_pos trivial] at this
    simp only [List.append_nil, List.cons_append, List.nil_append]
    rw [this]
    have hno : ∀ x ∈ numbers t2, 59 ∉ x := by
      intro x hx
      simp only [numbers, List.mem_map, List.mem_filter, beq_iff_eq] at hx
      obtain ⟨t, ⟨ht, htc⟩, rfl⟩ := hx
      exact hsemi t (by simp [ht]) htc
    cases hm with
    | grouping _ _ _ _ is hi =>
      rw [c1, split_semis c2 hno] at hi
      rw [map_getD hi]

/-! ## The whole stream -/

theorem stream_spec {ss ts d vs d'} (h : Derives ss ts d vs d') :
    (∀ t ∈ ts, t.code = Tm.NUMBER.code → 59 ∉ t.val) → ∀ (isE : Bool) (cur : List Tok), sim isE ss = true →
    harmless cur = true → (isE = true → cur = []) → ts.foldl feed (cur, d) = ([], d') := by
  induction h with
  | nil d =>
    intro _ isE cur hs hc he
    simp only [sim] at hs
    rw [he hs]
    rfl
  | tm x v ss ts d d' vs _ ih =>
    intro hsemi isE cur hs hc he
    simp only [sim, trans] at hs
    split at hs
    · rename_i b hb
      split at hb
      · rename_i hf
        simp at hf
      · split at hb
        · rename_i hsafe
          simp only [Option.some.injEq] at hb
          subst hb
          simp only [safe, Bool.not_eq_true'] at hsafe
          simp only [List.foldl_cons, feed]
          have hsemi' : ∀ t ∈ ts, t.code = Tm.NUMBER.code → 59 ∉ t.val := fun t ht => hsemi t (by simp [ht])
          split
          · rw [stmt_harmless hc]
            exact ih hsemi' _ [] hs rfl (fun _ => rfl)
          · rename_i hne
            refine ih hsemi' _ _ hs (harmless_append hc hsafe) (fun hh => ?_)
            simp only [endsE, beq_iff_eq] at hh
            exact absurd (by rw [hh]) hne
        · cases hb
    · cases hs
  | nt p hp ts ts1 d d1 d2 d3 us v ss vs h hm _ ih1 ih2 =>
    intro hsemi isE cur hs hc he
    have hsemi1 : ∀ t ∈ ts, t.code = Tm.NUMBER.code → 59 ∉ t.val := fun t ht => hsemi t (by simp [ht])
    have hsemi2 : ∀ t ∈ ts1, t.code = Tm.NUMBER.code → 59 ∉ t.val := fun t ht => hsemi t (by simp [ht])
    simp only [sim, trans] at hs
    rw [List.foldl_append]
    split at hs
    · rename_i b hb
      split at hb
      · rename_i hmon
        cases isE with
        | false => simp at hb
        | true =>
          simp only [if_true, Option.some.injEq] at hb
          subst hb
          rw [he rfl]
          have key : ts.foldl feed ([], d) = ([], d2) := by
            by_cases hk : p.lhs = .monetary_keyword
            · exact statement_spec hp hk h hm hsemi1
            · have := List.all_eq_true.mp sim_ok p hp
              simp only [hmon, Bool.not_true, Bool.false_or, Bool.or_eq_true, beq_iff_eq, hk, false_or,
                Bool.and_eq_true] at this
              have hd : d2 = d1 := means_same hm (by rw [this.2]; rfl)
              rw [hd]
              exact ih1 hsemi1 true [] this.1 rfl (fun _ => rfl)
          rw [key]
          exact ih2 hsemi2 true [] hs rfl (fun _ => rfl)
      · split at hb
        · rename_i hsafe
          simp only [Option.some.injEq] at hb
          subst hb
          have hgr := List.all_eq_true.mp safe_ok p hp
          simp only [hsafe, Bool.not_true, Bool.false_or, Bool.and_eq_true, Bool.not_eq_true'] at hgr
          obtain ⟨e1, hds⟩ := safe_spec h hgr.1
          have e2 := means_same hm hgr.2
          subst e1; subst e2
          obtain ⟨cur', f1, f2⟩ := feed_safe hds hc d2
          rw [f1]
          refine ih2 hsemi2 _ cur' hs f2 (fun hh => ?_)
          simp only [endsE] at hh
          have hen := List.all_eq_true.mp ends_ok p hp
          simp only [hh, Bool.not_true, Bool.false_or] at hen
          split at hen
          · rename_i y hy
            obtain ⟨ts', v', rfl⟩ := ends_spec h hy hen
            have := feed_safe_line (ts := ts') (v := v') (fun t ht => hds t (by simp [ht])) hc d2
            rw [this] at f1
            exact (congrArg (fun x => x.1) f1).symm
          · cases hen
        · cases hb
    · cases hs

/-- **C58, second part.** What an accepted stream defines is read off its lines, in order: a `mon_grouping` line
stores the list of its integers, an `int_curr_symbol` line stores its string, and no other line stores anything.
(Number tokens do not have a semicolon in them; the lexer takes digits only.) -/
theorem C58_stores (handler : Bool) (toks : List Tok) (hp : ∀ t ∈ toks, 0 < t.code)
    (hsemi : ∀ t ∈ toks, t.code = Tm.NUMBER.code → 59 ∉ t.val) (d d' : Def)
    (h : parse handler toks d = .ok (0, d')) : d' = (tokLines [] toks).foldl stmt d := by
  obtain ⟨v, hv⟩ := (C57_exact handler toks hp d d').mp h
  have := stream_spec hv hsemi true [] (by decide +kernel) rfl (fun _ => rfl)
  rw [← feed_lines, this]

/-- The hypotheses of `C58_stores` can be met: two sections, the second one with a grouping list. -/
example :
    let toks := [tk .LC_MONETARY_STR b!"LC_MONETARY", tk .EOL [], tk .INT_CURR_SYMBOL_STR b!"int_curr_symbol",
      tk .DQUOTE b!"\"", tk .CHAR b!"E", tk .CHAR b!"U", tk .CHAR b!"R", tk .DQUOTE b!"\"", tk .EOL [],
      tk .MON_GROUPING_STR b!"mon_grouping", tk .NUMBER b!"3", tk .SEMI b!";", tk .NUMBER b!"12", tk .EOL [],
      tk .END_STR b!"END", tk .LC_MONETARY_STR b!"LC_MONETARY", tk .EOL []]
    (∀ t ∈ toks, 0 < t.code) ∧ (∀ t ∈ toks, t.code = Tm.NUMBER.code → 59 ∉ t.val) ∧
    parse false toks {} = .ok (0, { intCurrSymbol := b!"EUR", monGrouping := [3, 12] }) := by
  decide +kernel

end Locale
