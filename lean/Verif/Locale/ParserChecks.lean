import Verif.Locale.Packed

/-!
# Finite facts about the tables of the generated parser
-/

namespace Locale
open Go

/-! ## Looking up -/

theorem at_map {n : Nat} {f : Nat → Int} {t : List Int} (h : t = (List.range n).map f) {i : Nat} (hi : i < n) :
    at_ t (i : Int) = .ok (f i) := by
  subst h
  simp [at_, hi, show ¬((i : Int) < 0) by omega]

theorem at_pact {s : Nat} (h : s < 316) : at_ yyPact s = .ok (pactP s) := at_map yyPact_eq h
theorem at_act {s : Nat} (h : s < 468) : at_ yyAct s = .ok (actP s) := at_map yyAct_eq h
theorem at_chk {s : Nat} (h : s < 316) : at_ yyChk s = .ok (chkP s) := at_map yyChk_eq h
theorem at_def {s : Nat} (h : s < 316) : at_ yyDef s = .ok (defP s) := at_map yyDef_eq h
theorem at_r1 {s : Nat} (h : s < 191) : at_ yyR1 s = .ok (r1P s) := at_map yyR1_eq h
theorem at_r2 {s : Nat} (h : s < 191) : at_ yyR2 s = .ok (r2P s) := at_map yyR2_eq h
theorem at_pgo {s : Nat} (h : s < 74) : at_ yyPgo s = .ok (pgoP s) := at_map yyPgo_eq h

/-! ## Symbols and their numbers -/

/-- The number of a symbol in the tables. -/
def Sym.num : Sym → Int
  | .t x => x.ctorIdx + 4
  | .n x => -(x.ctorIdx + 1)

/-- The terminals in order. -/
def Tm.list : List Tm :=
  [.LOC_NAME, .CHAR, .NUMBER, .COLLSYMBOL, .COLLELEMENT, .CHARSYMBOL, .OCTAL_CHAR, .HEX_CHAR, .DECIMAL_CHAR,
   .CHARCLASS, .ELLIPSIS, .EXTENDED_REG_EXP, .EOL, .ESCAPE_CHAR_STR, .COMMENT_CHAR_STR, .COPY_STR, .LC_CTYPE_STR,
   .CHARCLASS_STR, .UPPER_STR, .LOWER_STR, .ALPHA_STR, .DIGIT_STR, .PUNCT_STR, .XDIGIT_STR, .SPACE_STR, .PRINT_STR,
   .GRAPH_STR, .BLANK_STR, .CNTRL_STR, .ALNUM_STR, .TOUPPER_STR, .TOLOWER_STR, .LC_COLLATE_STR,
   .COLLATING_SYMBOL_STR, .COLLATING_ELEMENT_STR, .ORDER_START_STR, .FORWARD_STR, .BACKWARD_STR, .POSITION_STR,
   .UNDEFINED_STR, .IGNORE_STR, .END_STR, .LC_TIME_STR, .ERA_STR, .ERA_D_FMT_STR, .ERA_T_FMT_STR, .ALT_DIGITS_STR,
   .ERA_D_T_FMT_STR, .AM_PM_STR, .D_T_FMT_STR, .D_FMT_STR, .T_FMT_STR, .T_FMT_AMPM_STR, .ABDAY_STR, .DAY_STR,
   .ABMON_STR, .MON_STR, .LC_NUMERIC_STR, .DECIMAL_POINT_STR, .THOUSANDS_SEP_STR, .LC_MONETARY_STR,
   .INT_P_SIGN_POSN_STR, .INT_N_CS_PRECEDES_STR, .INT_P_CS_PRECEDES_STR, .P_SIGN_POSN_STR, .N_CS_PRECEDES_STR,
   .P_CS_PRECEDES_STR, .INT_FRAC_DIGITS_STR, .FRAC_DIGITS_STR, .P_SEP_BY_SPACE_STR, .N_SEP_BY_SPACE_STR,
   .N_SIGN_POSN_STR, .INT_P_SEP_BY_SPACE_STR, .INT_N_SEP_BY_SPACE_STR, .INT_N_SIGN_POSN_STR, .NEGATIVE_SIGN_STR,
   .POSITIVE_SIGN_STR, .MON_DECIMAL_POINT_STR, .INT_CURR_SYMBOL_STR, .CURRENCY_SYMBOL_STR, .MON_THOUSANDS_SEP_STR,
   .LC_MESSAGES_STR, .NOEXPR_STR, .YESEXPR_STR, .FROM_STR, .ORDER_END_STR, .MON_GROUPING_STR, .GROUPING_STR,
   .NEGATIVE_ONE_STR, .TWO_DOUBLE_QUOTE_STR, .DQUOTE, .SEMI, .LPAREN, .COMMA, .RPAREN]

theorem Tm.list_get (x : Tm) : Tm.list[x.ctorIdx]? = some x := by
  cases x <;> rfl

theorem Tm.ctorIdx_inj {x y : Tm} (h : x.ctorIdx = y.ctorIdx) : x = y := by
  have := Tm.list_get x
  rw [h, Tm.list_get y] at this
  exact (Option.some.inj this).symm

/-- The nonterminals in order. -/
def Nt.list : List Nt :=
  [.locale_definition, .global_statements, .locale_categories, .symbol_redefine, .locale_category, .lc_ctype,
   .lc_collate, .lc_messages, .lc_monetary, .lc_numeric, .lc_time, .char_list, .char_symbol, .elem_list, .symb_list,
   .locale_name, .ctype_hdr, .ctype_keywords, .ctype_tlr, .ctype_keyword, .charclass_keyword, .charclass_list,
   .charconv_keyword, .charconv_list, .charclass_namelist, .charconv_entry, .collate_hdr, .collate_keywords,
   .collate_tlr, .order_statements, .opt_statements, .collating_symbols, .collating_elements, .order_start,
   .collation_order, .order_end, .order_opts, .order_opt, .opt_word, .collation_entry, .collation_element,
   .weight_list, .weight_symbol, .messages_hdr, .messages_keywords, .messages_tlr, .messages_keyword, .monetary_hdr,
   .monetary_keywords, .monetary_tlr, .monetary_keyword, .mon_keyword_string, .mon_string, .mon_keyword_char,
   .mon_keyword_grouping, .mon_group_list, .numeric_hdr, .numeric_keywords, .numeric_tlr, .numeric_keyword,
   .num_keyword_string, .num_string, .num_keyword_grouping, .num_group_list, .time_hdr, .time_keywords, .time_tlr,
   .time_keyword, .time_keyword_name, .time_list, .time_keyword_fmt, .time_string, .time_keyword_opt]

theorem Nt.list_get (x : Nt) : Nt.list[x.ctorIdx]? = some x := by
  cases x <;> rfl

theorem Nt.ctorIdx_inj {x y : Nt} (h : x.ctorIdx = y.ctorIdx) : x = y := by
  have := Nt.list_get x
  rw [h, Nt.list_get y] at this
  exact (Option.some.inj this).symm

theorem Sym.num_inj {x y : Sym} (h : x.num = y.num) : x = y := by
  cases x with
  | t x => cases y with
    | t y => simp only [Sym.num] at h; rw [Tm.ctorIdx_inj (x := x) (y := y) (by omega)]
    | n y => simp only [Sym.num] at h; omega
  | n x => cases y with
    | t y => simp only [Sym.num] at h; omega
    | n y => simp only [Sym.num] at h; rw [Nt.ctorIdx_inj (x := x) (y := y) (by omega)]

/-! ## The grammar and the tables agree -/

/-- The production with number `p` (the tables count from 1). -/
def prodAt (p : Nat) : Option Prod := grammar[p - 1]?

/-- The action of production `p` in y.go. -/
def actionOf (p : Nat) : Action :=
  if p = 15 then .concat else if p = 120 then .storeString else if p = 121 then .checkNumber
  else if p = 122 then .minusOne else if p = 123 then .storeGrouping else if p = 130 then .unquote
  else if p = 148 then .semicolon else .first

/-- Production `p` has the left hand side and the length the tables say. -/
def prodOK (p : Nat) : Bool :=
  match prodAt p with
  | none => false
  | some pr => r1P p == -(Sym.n pr.lhs).num && r2P p == pr.rhs.length && pr.action == actionOf p

theorem prods_ok : ((List.range 190).all fun p => prodOK (p + 1)) = true := by decide +kernel

/-- The state after reducing to nonterminal `a` in state `s`. -/
def gotoP (a s : Nat) : Int :=
  let g := pgoP a
  let j := g + s + 1
  if j ≥ 468 then actP g.toNat
  else if chkP (actP j.toNat).toNat ≠ -a then actP g.toNat else actP j.toNat

/-- `w * length + rank` decreases with every reduction. -/
abbrev w : Nat := 20

/-- Every way down the stack from `s` spells the symbols in `xs`, top first, and ends in a state where `fin` holds. -/
def chainOK (fin : Nat → Bool) : List Sym → Nat → Bool
  | [], s => fin s
  | x :: xs, s => chkP s == x.num && (preds s).all fun q => chainOK fin xs q

/-- After the reduction of production `p` found in state `s`, with `q` uncovered. -/
def finOK (s p : Nat) (q : Nat) : Bool :=
  let x := gotoP (r1P p).toNat q
  0 ≤ x && x < 316 && chkP x.toNat == -(r1P p) && (preds x.toNat).contains q &&
    (w + rankP x.toNat < w * (r2P p).toNat + rankP s : Bool)

/-- The default action of state `s` is possible. -/
def redOK (s : Nat) : Bool :=
  if defP s > 0 then
    defP s < 191 &&
    match prodAt (defP s).toNat with
    | none => false
    | some pr => chainOK (finOK s (defP s).toNat) pr.rhs.reverse s
  else defP s == 0 || (defP s == -2 && s == 1)

theorem reds_ok : ((List.range 316).all redOK) = true := by decide +kernel

/-- Shifts from state `s` lead to a state that can be above `s`. -/
def shiftOK (s : Nat) : Bool :=
  if pactP s ≤ -1000 then true
  else (List.range 99).all fun t =>
    let n := pactP s + t
    if n < 0 || n ≥ 468 then true
    else
      let x := actP n.toNat
      0 ≤ x && x < 316 && (if chkP x.toNat == t then 4 ≤ t && (preds x.toNat).contains s else true)

theorem shifts_ok : ((List.range 316).all shiftOK) = true := by decide +kernel

/-- No state shifts `error`. -/
def errOK (s : Nat) : Bool :=
  let n := pactP s + 2
  if 0 ≤ n && n < 468 then
    let x := actP n.toNat
    0 ≤ x && x < 316 && chkP x.toNat != 2
  else true

theorem errs_ok : ((List.range 316).all errOK) = true := by decide +kernel

theorem pgo_ok : ((List.range 74).all fun a => 0 ≤ pgoP a && pgoP a < 468) = true := by decide +kernel

theorem act_ok : ((List.range 468).all fun a => 0 ≤ actP a && actP a < 316) = true := by decide +kernel

theorem rank_le : ((List.range 316).all fun s => decide (rankP s ≤ 24)) = true := by decide +kernel

theorem preds_bounded : (predL.all fun l => l.all fun q => decide (q < 316)) = true := by decide +kernel

theorem preds_zero : preds 0 = [] := by decide +kernel

theorem preds_one : preds 1 = [0] := by decide +kernel

theorem chk_one : chkP 1 = -1 := by decide +kernel

end Locale
