/-- A token as the parser receives it: the number and the text. -/
structure Tok where
  code : Int
  val : Bytes
  deriving DecidableEq, Repr

/-- The part of `Def` (locale.go:19-26, monetary.go:4-26) that any code assigns. -/
structure Def where
  intCurrSymbol : Bytes := []
  intFracDigits : Int := 0
  monGrouping : List Int := []
  deriving DecidableEq, Repr

/-- What a production does besides being recognised: the braces in localedef.y. -/
inductive Action where
  /-- localedef.y:189: the texts are concatenated -/
  | concat
  /-- localedef.y:418: an `int_curr_symbol` is stored -/
  | storeString
  /-- localedef.y:419: the number has to be one, and is not stored -/
  | checkNumber
  /-- localedef.y:420: nothing is stored -/
  | minusOne
  /-- localedef.y:421: the list of numbers is stored -/
  | storeGrouping
  /-- localedef.y:431: the text between the quotes -/
  | unquote
  /-- localedef.y:451: the texts with a semicolon between -/
  | semicolon
  /-- no braces: the text of the first symbol -/
  | first
  deriving DecidableEq, Repr

open Tm Nt Sym in
/-- Which production has which action. -/
def Prod.action (p : Prod) : Action :=
  if p = ⟨char_list, [n char_list, n char_symbol]⟩ then .concat
  else if p = ⟨monetary_keyword, [n mon_keyword_string, n mon_string, t EOL]⟩ then .storeString
  else if p = ⟨monetary_keyword, [n mon_keyword_char, t NUMBER, t EOL]⟩ then .checkNumber
  else if p = ⟨monetary_keyword, [n mon_keyword_char, t NEGATIVE_ONE_STR, t EOL]⟩ then .minusOne
  else if p = ⟨monetary_keyword, [n mon_keyword_grouping, n mon_group_list, t EOL]⟩ then .storeGrouping
  else if p = ⟨mon_string, [t DQUOTE, n char_list, t DQUOTE]⟩ then .unquote
  else if p = ⟨mon_group_list, [n mon_group_list, t SEMI, t NUMBER]⟩ then .semicolon
  else .first

/-- `Means a vs d v d'`: the action takes the texts `vs` of the symbols on the right and the definitions `d` to the
text `v` and the definitions `d'`. An empty right hand side has an arbitrary text (none is ever looked at). -/
inductive Means : Action → List Bytes → Def → Bytes → Def → Prop
  | concat (a b : Bytes) (d : Def) : Means .concat [a, b] d (a ++ b) d
  | currency (s e : Bytes) (d : Def) :
    Means .storeString [b!"int_curr_symbol", s, e] d b!"int_curr_symbol" { d with intCurrSymbol := s }
  | otherString (k s e : Bytes) (d : Def) (h : k ≠ b!"int_curr_symbol") : Means .storeString [k, s, e] d k d
  | number (k s e : Bytes) (d : Def) (i : Int) (h : atoi? s = some i) : Means .checkNumber [k, s, e] d k d
  | minusOne (k s e : Bytes) (d : Def) : Means .minusOne [k, s, e] d k d
  | grouping (k s e : Bytes) (d : Def) (is : List Int) (h : (split s b!";").map atoi? = is.map some) :
    Means .storeGrouping [k, s, e] d k { d with monGrouping := is }
  | unquote (q1 s q2 : Bytes) (d : Def) : Means .unquote [q1, s, q2] d s d
  | semicolon (a s b : Bytes) (d : Def) : Means .semicolon [a, s, b] d (a ++ b!";" ++ b) d
  | first (v : Bytes) (vs : List Bytes) (d : Def) : Means .first (v :: vs) d v d
  | empty (v : Bytes) (d : Def) : Means .first [] d v d

/-- `Derives ss ts d vs d'`: the symbols `ss` derive the tokens `ts`, having the texts `vs`; the actions of the
derivation, in the order of the text, children before parents, take the definitions `d` to `d'`. -/
inductive Derives : List Sym → List Tok → Def → List Bytes → Def → Prop
  | nil (d : Def) : Derives [] [] d [] d
  | tm (x : Tm) (v : Bytes) (ss : List Sym) (ts : List Tok) (d d' : Def) (vs : List Bytes)
    (h : Derives ss ts d vs d') : Derives (.t x :: ss) (⟨x.code, v⟩ :: ts) d (v :: vs) d'
  | nt (p : Prod) (hp : p ∈ grammar) (ts ts' : List Tok) (d d1 d2 d3 : Def) (ws : List Bytes) (v : Bytes)
    (ss : List Sym) (vs : List Bytes) (h : Derives p.rhs ts d ws d1) (hm : Means p.action ws d1 v d2)
    (h' : Derives ss ts' d2 vs d3) : Derives (.n p.lhs :: ss) (ts ++ ts') d (v :: vs) d3

/-- A token stream that is a locale definition, and what it defines. -/
def LocaleDefinition (ts : List Tok) (d d' : Def) : Prop :=
  ∃ v, Derives [.n .locale_definition] ts d [v] d'

end Locale
