import Verif.Go.Strconv
import Verif.Go.Strings

/-!
# The locale definition grammar (specification)

The grammar of `pkg/locale/localedef.y`, written with names, together with the meaning of the productions. This is
a specification: it does not mention the generated tables, the states or the stack of the parser.
-/

namespace Locale
open Go

/-- The terminals: localedef.y:50-153 in the order of their first declaration, then the literal characters in the
order of their first use. -/
inductive Tm where
  | LOC_NAME | CHAR | NUMBER | COLLSYMBOL | COLLELEMENT | CHARSYMBOL | OCTAL_CHAR | HEX_CHAR | DECIMAL_CHAR
  | CHARCLASS | ELLIPSIS | EXTENDED_REG_EXP | EOL | ESCAPE_CHAR_STR | COMMENT_CHAR_STR | COPY_STR
  | LC_CTYPE_STR | CHARCLASS_STR | UPPER_STR | LOWER_STR | ALPHA_STR | DIGIT_STR | PUNCT_STR | XDIGIT_STR
  | SPACE_STR | PRINT_STR | GRAPH_STR | BLANK_STR | CNTRL_STR | ALNUM_STR | TOUPPER_STR | TOLOWER_STR
  | LC_COLLATE_STR | COLLATING_SYMBOL_STR | COLLATING_ELEMENT_STR | ORDER_START_STR | FORWARD_STR
  | BACKWARD_STR | POSITION_STR | UNDEFINED_STR | IGNORE_STR | END_STR | LC_TIME_STR | ERA_STR
  | ERA_D_FMT_STR | ERA_T_FMT_STR | ALT_DIGITS_STR | ERA_D_T_FMT_STR | AM_PM_STR | D_T_FMT_STR | D_FMT_STR
  | T_FMT_STR | T_FMT_AMPM_STR | ABDAY_STR | DAY_STR | ABMON_STR | MON_STR | LC_NUMERIC_STR
  | DECIMAL_POINT_STR | THOUSANDS_SEP_STR | LC_MONETARY_STR | INT_P_SIGN_POSN_STR | INT_N_CS_PRECEDES_STR
  | INT_P_CS_PRECEDES_STR | P_SIGN_POSN_STR | N_CS_PRECEDES_STR | P_CS_PRECEDES_STR | INT_FRAC_DIGITS_STR
  | FRAC_DIGITS_STR | P_SEP_BY_SPACE_STR | N_SEP_BY_SPACE_STR | N_SIGN_POSN_STR | INT_P_SEP_BY_SPACE_STR
  | INT_N_SEP_BY_SPACE_STR | INT_N_SIGN_POSN_STR | NEGATIVE_SIGN_STR | POSITIVE_SIGN_STR
  | MON_DECIMAL_POINT_STR | INT_CURR_SYMBOL_STR | CURRENCY_SYMBOL_STR | MON_THOUSANDS_SEP_STR
  | LC_MESSAGES_STR | NOEXPR_STR | YESEXPR_STR | FROM_STR | ORDER_END_STR | MON_GROUPING_STR | GROUPING_STR
  | NEGATIVE_ONE_STR | TWO_DOUBLE_QUOTE_STR | DQUOTE | SEMI | LPAREN | COMMA | RPAREN
  deriving DecidableEq, Repr

/-- The nonterminals of localedef.y:156-548 in the order of their first appearance. -/
inductive Nt where
  | locale_definition | global_statements | locale_categories | symbol_redefine | locale_category | lc_ctype
  | lc_collate | lc_messages | lc_monetary | lc_numeric | lc_time | char_list | char_symbol | elem_list
  | symb_list | locale_name | ctype_hdr | ctype_keywords | ctype_tlr | ctype_keyword | charclass_keyword
  | charclass_list | charconv_keyword | charconv_list | charclass_namelist | charconv_entry | collate_hdr
  | collate_keywords | collate_tlr | order_statements | opt_statements | collating_symbols
  | collating_elements | order_start | collation_order | order_end | order_opts | order_opt | opt_word
  | collation_entry | collation_element | weight_list | weight_symbol | messages_hdr | messages_keywords
  | messages_tlr | messages_keyword | monetary_hdr | monetary_keywords | monetary_tlr | monetary_keyword
  | mon_keyword_string | mon_string | mon_keyword_char | mon_keyword_grouping | mon_group_list | numeric_hdr
  | numeric_keywords | numeric_tlr | numeric_keyword | num_keyword_string | num_string | num_keyword_grouping
  | num_group_list | time_hdr | time_keywords | time_tlr | time_keyword | time_keyword_name | time_list
  | time_keyword_fmt | time_string | time_keyword_opt
  deriving DecidableEq, Repr

/-- A grammar symbol. -/
inductive Sym where
  | t (x : Tm)
  | n (x : Nt)
  deriving DecidableEq, Repr

/-- A production. -/
structure Prod where
  lhs : Nt
  rhs : List Sym
  deriving DecidableEq, Repr

open Tm Nt Sym in
/-- localedef.y:156-548, the productions in order. -/
def grammar : List Prod := [
  ⟨locale_definition, [n global_statements, n locale_categories]⟩,
  ⟨locale_definition, [n locale_categories]⟩,
  ⟨global_statements, [n global_statements, n symbol_redefine]⟩,
  ⟨global_statements, [n symbol_redefine]⟩,
  ⟨symbol_redefine, [t ESCAPE_CHAR_STR, t CHAR, t EOL]⟩,
  ⟨symbol_redefine, [t COMMENT_CHAR_STR, t CHAR, t EOL]⟩,
  ⟨locale_categories, [n locale_categories, n locale_category]⟩,
  ⟨locale_categories, [n locale_category]⟩,
  ⟨locale_category, [n lc_ctype]⟩,
  ⟨locale_category, [n lc_collate]⟩,
  ⟨locale_category, [n lc_messages]⟩,
  ⟨locale_category, [n lc_monetary]⟩,
  ⟨locale_category, [n lc_numeric]⟩,
  ⟨locale_category, [n lc_time]⟩,
  ⟨char_list, [n char_list, n char_symbol]⟩,
  ⟨char_list, [n char_symbol]⟩,
  ⟨char_symbol, [t CHAR]⟩,
  ⟨char_symbol, [t CHARSYMBOL]⟩,
  ⟨char_symbol, [t OCTAL_CHAR]⟩,
  ⟨char_symbol, [t HEX_CHAR]⟩,
  ⟨char_symbol, [t DECIMAL_CHAR]⟩,
  ⟨elem_list, [n elem_list, n char_symbol]⟩,
  ⟨elem_list, [n elem_list, t COLLSYMBOL]⟩,
  ⟨elem_list, [n elem_list, t COLLELEMENT]⟩,
  ⟨elem_list, [n char_symbol]⟩,
  ⟨elem_list, [t COLLSYMBOL]⟩,
  ⟨elem_list, [t COLLELEMENT]⟩,
  ⟨symb_list, [n symb_list, t COLLSYMBOL]⟩,
  ⟨symb_list, [t COLLSYMBOL]⟩,
  ⟨locale_name, [t LOC_NAME]⟩,
  ⟨locale_name, [t DQUOTE, t LOC_NAME, t DQUOTE]⟩,
  ⟨lc_ctype, [n ctype_hdr, n ctype_keywords, n ctype_tlr]⟩,
  ⟨lc_ctype, [n ctype_hdr, t COPY_STR, n locale_name, t EOL, n ctype_tlr]⟩,
  ⟨ctype_hdr, [t LC_CTYPE_STR, t EOL]⟩,
  ⟨ctype_keywords, [n ctype_keywords, n ctype_keyword]⟩,
  ⟨ctype_keywords, [n ctype_keyword]⟩,
  ⟨ctype_keyword, [n charclass_keyword, n charclass_list, t EOL]⟩,
  ⟨ctype_keyword, [n charconv_keyword, n charconv_list, t EOL]⟩,
  ⟨ctype_keyword, [t CHARCLASS_STR, n charclass_namelist, t EOL]⟩,
  ⟨charclass_namelist, [n charclass_namelist, t SEMI, t CHARCLASS]⟩,
  ⟨charclass_namelist, [t CHARCLASS]⟩,
  ⟨charclass_keyword, [t UPPER_STR]⟩,
  ⟨charclass_keyword, [t LOWER_STR]⟩,
  ⟨charclass_keyword, [t ALPHA_STR]⟩,
  ⟨charclass_keyword, [t DIGIT_STR]⟩,
  ⟨charclass_keyword, [t PUNCT_STR]⟩,
  ⟨charclass_keyword, [t XDIGIT_STR]⟩,
  ⟨charclass_keyword, [t SPACE_STR]⟩,
  ⟨charclass_keyword, [t PRINT_STR]⟩,
  ⟨charclass_keyword, [t GRAPH_STR]⟩,
  ⟨charclass_keyword, [t BLANK_STR]⟩,
  ⟨charclass_keyword, [t CNTRL_STR]⟩,
  ⟨charclass_keyword, [t ALNUM_STR]⟩,
  ⟨charclass_keyword, [t CHARCLASS]⟩,
  ⟨charclass_list, [n charclass_list, t SEMI, n char_symbol]⟩,
  ⟨charclass_list, [n charclass_list, t SEMI, t ELLIPSIS, t SEMI, n char_symbol]⟩,
  ⟨charclass_list, [n char_symbol]⟩,
  ⟨charconv_keyword, [t TOUPPER_STR]⟩,
  ⟨charconv_keyword, [t TOLOWER_STR]⟩,
  ⟨charconv_list, [n charconv_list, t SEMI, n charconv_entry]⟩,
  ⟨charconv_list, [n charconv_entry]⟩,
  ⟨charconv_entry, [t LPAREN, n char_symbol, t COMMA, n char_symbol, t RPAREN]⟩,
  ⟨ctype_tlr, [t END_STR, t LC_CTYPE_STR, t EOL]⟩,
  ⟨lc_collate, [n collate_hdr, n collate_keywords, n collate_tlr]⟩,
  ⟨lc_collate, [n collate_hdr, t COPY_STR, n locale_name, t EOL, n collate_tlr]⟩,
  ⟨collate_hdr, [t LC_COLLATE_STR, t EOL]⟩,
  ⟨collate_keywords, [n order_statements]⟩,
  ⟨collate_keywords, [n opt_statements, n order_statements]⟩,
  ⟨opt_statements, [n opt_statements, n collating_symbols]⟩,
  ⟨opt_statements, [n opt_statements, n collating_elements]⟩,
  ⟨opt_statements, [n collating_symbols]⟩,
  ⟨opt_statements, [n collating_elements]⟩,
  ⟨collating_symbols, [t COLLATING_SYMBOL_STR, t COLLSYMBOL, t EOL]⟩,
  ⟨collating_elements, [t COLLATING_ELEMENT_STR, t COLLELEMENT]⟩,
  ⟨collating_elements, [t FROM_STR, t DQUOTE, n elem_list, t DQUOTE, t EOL]⟩,
  ⟨order_statements, [n order_start, n collation_order, n order_end]⟩,
  ⟨order_start, [t ORDER_START_STR, t EOL]⟩,
  ⟨order_start, [t ORDER_START_STR, n order_opts, t EOL]⟩,
  ⟨order_opts, [n order_opts, t SEMI, n order_opt]⟩,
  ⟨order_opts, [n order_opt]⟩,
  ⟨order_opt, [n order_opt, t COMMA, n opt_word]⟩,
  ⟨order_opt, [n opt_word]⟩,
  ⟨opt_word, [t FORWARD_STR]⟩,
  ⟨opt_word, [t BACKWARD_STR]⟩,
  ⟨opt_word, [t POSITION_STR]⟩,
  ⟨collation_order, [n collation_order, n collation_entry]⟩,
  ⟨collation_order, [n collation_entry]⟩,
  ⟨collation_entry, [t COLLSYMBOL, t EOL]⟩,
  ⟨collation_entry, [n collation_element, n weight_list, t EOL]⟩,
  ⟨collation_entry, [n collation_element, t EOL]⟩,
  ⟨collation_element, [n char_symbol]⟩,
  ⟨collation_element, [t COLLELEMENT]⟩,
  ⟨collation_element, [t ELLIPSIS]⟩,
  ⟨collation_element, [t UNDEFINED_STR]⟩,
  ⟨weight_list, [n weight_list, t SEMI, n weight_symbol]⟩,
  ⟨weight_list, [n weight_list, t SEMI]⟩,
  ⟨weight_list, [n weight_symbol]⟩,
  ⟨weight_symbol, []⟩,
  ⟨weight_symbol, [n char_symbol]⟩,
  ⟨weight_symbol, [t COLLSYMBOL]⟩,
  ⟨weight_symbol, [t DQUOTE, n elem_list, t DQUOTE]⟩,
  ⟨weight_symbol, [t DQUOTE, n symb_list, t DQUOTE]⟩,
  ⟨weight_symbol, [t ELLIPSIS]⟩,
  ⟨weight_symbol, [t IGNORE_STR]⟩,
  ⟨order_end, [t ORDER_END_STR, t EOL]⟩,
  ⟨collate_tlr, [t END_STR, t LC_COLLATE_STR, t EOL]⟩,
  ⟨lc_messages, [n messages_hdr, n messages_keywords, n messages_tlr]⟩,
  ⟨lc_messages, [n messages_hdr, t COPY_STR, n locale_name, t EOL, n messages_tlr]⟩,
  ⟨messages_hdr, [t LC_MESSAGES_STR, t EOL]⟩,
  ⟨messages_keywords, [n messages_keywords, n messages_keyword]⟩,
  ⟨messages_keywords, [n messages_keyword]⟩,
  ⟨messages_keyword, [t YESEXPR_STR, t DQUOTE, t EXTENDED_REG_EXP, t DQUOTE, t EOL]⟩,
  ⟨messages_keyword, [t NOEXPR_STR, t DQUOTE, t EXTENDED_REG_EXP, t DQUOTE, t EOL]⟩,
  ⟨messages_tlr, [t END_STR, t LC_MESSAGES_STR, t EOL]⟩,
  ⟨lc_monetary, [n monetary_hdr, n monetary_keywords, n monetary_tlr]⟩,
  ⟨lc_monetary, [n monetary_hdr, t COPY_STR, n locale_name, t EOL, n monetary_tlr]⟩,
  ⟨monetary_hdr, [t LC_MONETARY_STR, t EOL]⟩,
  ⟨monetary_keywords, [n monetary_keywords, n monetary_keyword]⟩,
  ⟨monetary_keywords, [n monetary_keyword]⟩,
  ⟨monetary_keyword, [n mon_keyword_string, n mon_string, t EOL]⟩,
  ⟨monetary_keyword, [n mon_keyword_char, t NUMBER, t EOL]⟩,
  ⟨monetary_keyword, [n mon_keyword_char, t NEGATIVE_ONE_STR, t EOL]⟩,
  ⟨monetary_keyword, [n mon_keyword_grouping, n mon_group_list, t EOL]⟩,
  ⟨mon_keyword_string, [t INT_CURR_SYMBOL_STR]⟩,
  ⟨mon_keyword_string, [t CURRENCY_SYMBOL_STR]⟩,
  ⟨mon_keyword_string, [t MON_DECIMAL_POINT_STR]⟩,
  ⟨mon_keyword_string, [t MON_THOUSANDS_SEP_STR]⟩,
  ⟨mon_keyword_string, [t POSITIVE_SIGN_STR]⟩,
  ⟨mon_keyword_string, [t NEGATIVE_SIGN_STR]⟩,
  ⟨mon_string, [t DQUOTE, n char_list, t DQUOTE]⟩,
  ⟨mon_string, [t TWO_DOUBLE_QUOTE_STR]⟩,
  ⟨mon_keyword_char, [t INT_FRAC_DIGITS_STR]⟩,
  ⟨mon_keyword_char, [t FRAC_DIGITS_STR]⟩,
  ⟨mon_keyword_char, [t P_CS_PRECEDES_STR]⟩,
  ⟨mon_keyword_char, [t P_SEP_BY_SPACE_STR]⟩,
  ⟨mon_keyword_char, [t N_CS_PRECEDES_STR]⟩,
  ⟨mon_keyword_char, [t N_SEP_BY_SPACE_STR]⟩,
  ⟨mon_keyword_char, [t P_SIGN_POSN_STR]⟩,
  ⟨mon_keyword_char, [t N_SIGN_POSN_STR]⟩,
  ⟨mon_keyword_char, [t INT_P_CS_PRECEDES_STR]⟩,
  ⟨mon_keyword_char, [t INT_P_SEP_BY_SPACE_STR]⟩,
  ⟨mon_keyword_char, [t INT_N_CS_PRECEDES_STR]⟩,
  ⟨mon_keyword_char, [t INT_N_SEP_BY_SPACE_STR]⟩,
  ⟨mon_keyword_char, [t INT_P_SIGN_POSN_STR]⟩,
  ⟨mon_keyword_char, [t INT_N_SIGN_POSN_STR]⟩,
  ⟨mon_keyword_grouping, [t MON_GROUPING_STR]⟩,
  ⟨mon_group_list, [t NUMBER]⟩,
  ⟨mon_group_list, [n mon_group_list, t SEMI, t NUMBER]⟩,
  ⟨monetary_tlr, [t END_STR, t LC_MONETARY_STR, t EOL]⟩,
  ⟨lc_numeric, [n numeric_hdr, n numeric_keywords, n numeric_tlr]⟩,
  ⟨lc_numeric, [n numeric_hdr, t COPY_STR, n locale_name, t EOL, n numeric_tlr]⟩,
  ⟨numeric_hdr, [t LC_NUMERIC_STR, t EOL]⟩,
  ⟨numeric_keywords, [n numeric_keywords, n numeric_keyword]⟩,
  ⟨numeric_keywords, [n numeric_keyword]⟩,
  ⟨numeric_keyword, [n num_keyword_string, n num_string, t EOL]⟩,
  ⟨numeric_keyword, [n num_keyword_grouping, n num_group_list, t EOL]⟩,
  ⟨num_keyword_string, [t DECIMAL_POINT_STR]⟩,
  ⟨num_keyword_string, [t THOUSANDS_SEP_STR]⟩,
  ⟨num_string, [t DQUOTE, n char_list, t DQUOTE]⟩,
  ⟨num_string, [t TWO_DOUBLE_QUOTE_STR]⟩,
  ⟨num_keyword_grouping, [t GROUPING_STR]⟩,
  ⟨num_group_list, [t NUMBER]⟩,
  ⟨num_group_list, [n num_group_list, t SEMI, t NUMBER]⟩,
  ⟨numeric_tlr, [t END_STR, t LC_NUMERIC_STR, t EOL]⟩,
  ⟨lc_time, [n time_hdr, n time_keywords, n time_tlr]⟩,
  ⟨lc_time, [n time_hdr, t COPY_STR, n locale_name, t EOL, n time_tlr]⟩,
  ⟨time_hdr, [t LC_TIME_STR, t EOL]⟩,
  ⟨time_keywords, [n time_keywords, n time_keyword]⟩,
  ⟨time_keywords, [n time_keyword]⟩,
  ⟨time_keyword, [n time_keyword_name, n time_list, t EOL]⟩,
  ⟨time_keyword, [n time_keyword_fmt, n time_string, t EOL]⟩,
  ⟨time_keyword, [n time_keyword_opt, n time_list, t EOL]⟩,
  ⟨time_keyword_name, [t AM_PM_STR]⟩,
  ⟨time_keyword_name, [t ABDAY_STR]⟩,
  ⟨time_keyword_name, [t DAY_STR]⟩,
  ⟨time_keyword_name, [t ABMON_STR]⟩,
  ⟨time_keyword_name, [t MON_STR]⟩,
  ⟨time_keyword_fmt, [t D_T_FMT_STR]⟩,
  ⟨time_keyword_fmt, [t D_FMT_STR]⟩,
  ⟨time_keyword_fmt, [t T_FMT_STR]⟩,
  ⟨time_keyword_fmt, [t T_FMT_AMPM_STR]⟩,
  ⟨time_keyword_opt, [t ERA_STR]⟩,
  ⟨time_keyword_opt, [t ERA_D_FMT_STR]⟩,
  ⟨time_keyword_opt, [t ERA_T_FMT_STR]⟩,
  ⟨time_keyword_opt, [t ERA_D_T_FMT_STR]⟩,
  ⟨time_keyword_opt, [t ALT_DIGITS_STR]⟩,
  ⟨time_list, [n time_list, t SEMI, n time_string]⟩,
  ⟨time_list, [n time_string]⟩,
  ⟨time_string, [t DQUOTE, n char_list, t DQUOTE]⟩,
  ⟨time_tlr, [t END_STR, t LC_TIME_STR, t EOL]⟩]

/-- The number the lexer returns for a terminal: y.go:60-149 (`const` declarations, from 57346 on) and the codes
of the literal characters. -/
def Tm.code : Tm → Int
  | .DQUOTE => 34
  | .SEMI => 59
  | .LPAREN => 40
  | .COMMA => 44
  | .RPAREN => 41
  | x => 57346 + x.ctorIdx

/-- A token as the parser receives it: the number and the text. -/
structure Tok where
  code : Int
  val : Bytes
  deriving DecidableEq, Repr

/-- The part of `Def` (locale.go:19-26, monetary.go:4-26) that any code assigns. -/
structure Def where
  intCurrSymbol : Bytes := []
  intFracDigits : Int := 0
  monGrouping : List Int := []
  deriving DecidableEq, Repr

/-- What a production does besides being recognised: the braces in localedef.y. -/
inductive Action where
  /-- localedef.y:189: the texts are concatenated -/
  | concat
  /-- localedef.y:418: an `int_curr_symbol` is stored -/
  | storeString
  /-- localedef.y:419: the number has to be one, and is not stored -/
  | checkNumber
  /-- localedef.y:420: nothing is stored -/
  | minusOne
  /-- localedef.y:421: the list of numbers is stored -/
  | storeGrouping
  /-- localedef.y:431: the text between the quotes -/
  | unquote
  /-- localedef.y:451: the texts with a semicolon between -/
  | semicolon
  /-- no braces: the text of the first symbol -/
  | first
  deriving DecidableEq, Repr

open Tm Nt Sym in
/-- Which production has which action. -/
def Prod.action (p : Prod) : Action :=
  if p = ⟨char_list, [n char_list, n char_symbol]⟩ then .concat
  else if p = ⟨monetary_keyword, [n mon_keyword_string, n mon_string, t EOL]⟩ then .storeString
  else if p = ⟨monetary_keyword, [n mon_keyword_char, t NUMBER, t EOL]⟩ then .checkNumber
  else if p = ⟨monetary_keyword, [n mon_keyword_char, t NEGATIVE_ONE_STR, t EOL]⟩ then .minusOne
  else if p = ⟨monetary_keyword, [n mon_keyword_grouping, n mon_group_list, t EOL]⟩ then .storeGrouping
  else if p = ⟨mon_string, [t DQUOTE, n char_list, t DQUOTE]⟩ then .unquote
  else if p = ⟨mon_group_list, [n mon_group_list, t SEMI, t NUMBER]⟩ then .semicolon
  else .first

/-- `Means a vs d v d'`: the action takes the texts `vs` of the symbols on the right and the definitions `d` to the
text `v` and the definitions `d'`. An empty right hand side has an arbitrary text (none is ever looked at). -/
inductive Means : Action → List Bytes → Def → Bytes → Def → Prop
  | concat (a b : Bytes) (d : Def) : Means .concat [a, b] d (a ++ b) d
  | currency (s e : Bytes) (d : Def) :
    Means .storeString [b!"int_curr_symbol", s, e] d b!"int_curr_symbol" { d with intCurrSymbol := s }
  | otherString (k s e : Bytes) (d : Def) (h : k ≠ b!"int_curr_symbol") : Means .storeString [k, s, e] d k d
  | number (k s e : Bytes) (d : Def) (i : Int) (h : atoi? s = some i) : Means .checkNumber [k, s, e] d k d
  | minusOne (k s e : Bytes) (d : Def) : Means .minusOne [k, s, e] d k d
  | grouping (k s e : Bytes) (d : Def) (is : List Int) (h : (split s b!";").map atoi? = is.map some) :
    Means .storeGrouping [k, s, e] d k { d with monGrouping := is }
  | unquote (q1 s q2 : Bytes) (d : Def) : Means .unquote [q1, s, q2] d s d
  | semicolon (a s b : Bytes) (d : Def) : Means .semicolon [a, s, b] d (a ++ b!";" ++ b) d
  | first (v : Bytes) (vs : List Bytes) (d : Def) : Means .first (v :: vs) d v d
  | empty (v : Bytes) (d : Def) : Means .first [] d v d

/-- `Derives ss ts d vs d'`: the symbols `ss` derive the tokens `ts`, having the texts `vs`; the actions of the
derivation, in the order of the text, children before parents, take the definitions `d` to `d'`. -/
inductive Derives : List Sym → List Tok → Def → List Bytes → Def → Prop
  | nil (d : Def) : Derives [] [] d [] d
  | tm (x : Tm) (v : Bytes) (ss : List Sym) (ts : List Tok) (d d' : Def) (vs : List Bytes)
    (h : Derives ss ts d vs d') : Derives (.t x :: ss) (⟨x.code, v⟩ :: ts) d (v :: vs) d'
  | nt (p : Prod) (hp : p ∈ grammar) (ts ts' : List Tok) (d d1 d2 d3 : Def) (ws : List Bytes) (v : Bytes)
    (ss : List Sym) (vs : List Bytes) (h : Derives p.rhs ts d ws d1) (hm : Means p.action ws d1 v d2)
    (h' : Derives ss ts' d2 vs d3) : Derives (.n p.lhs :: ss) (ts ++ ts') d (v :: vs) d3

/-- A token stream that is a locale definition, and what it defines. -/
def LocaleDefinition (ts : List Tok) (d d' : Def) : Prop :=
  ∃ v, Derives [.n .locale_definition] ts d [v] d'

end Locale
