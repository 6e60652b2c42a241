import Verif.Locale.Comments
import Verif.Locale.Grammar

/-!
# The lexer of locale files: model

/repo/pkg/locale/localelex.go, on top of github.com/bbuck/go-lexer (not in the repository; modelled from its source:
`L.Next`, `Rewind`, `Peek`, `Take`, `Current`, `Emit`, `Error`, `run`). The lexer runs in its own goroutine and sends its
tokens over a channel; the model collects the tokens instead. No error handler is set by `NewLexer`, so `Error` panics.
Running forever is modelled by a number of rounds given to every loop: `hang` is the result when they are used up.
-/

namespace Locale
open Go

/-- go-lexer's `L`: the source, the start of the current token, the position, the stack of runes read (`none` is
`EOFRune`), and the tokens sent so far. -/
structure L where
  source : Bytes
  start : Nat := 0
  pos : Nat := 0
  stack : List (Option Nat) := []
  toks : List Tok := []
  deriving DecidableEq, Repr

/-- Result of running a part of the lexer. -/
inductive Res (α : Type) where
  | ok (a : α) (l : L)
  | panic (p : Panic)
  | hang
  deriving DecidableEq, Repr

/-- A part of the lexer. -/
abbrev Lx (α : Type) := L → Res α

/-- One part after the other. -/
def Lx.bind {α β : Type} (m : Lx α) (f : α → Lx β) : Lx β := fun l =>
  match m l with
  | .ok a l => f a l
  | .panic p => .panic p
  | .hang => .hang

instance : Monad Lx where
  pure a := fun l => .ok a l
  bind := Lx.bind

/-- go-lexer `L.Current`. -/
def L.current (l : L) : Bytes := (l.source.take l.pos).drop l.start

/-- go-lexer `L.Next`. -/
def next : Lx (Option Nat) := fun l =>
  match l.source.drop l.pos with
  | [] => .ok none { l with stack := none :: l.stack }
  | b :: rest =>
    let d := decodeRune b rest
    .ok (some d.1) { l with pos := l.pos + d.2, stack := some d.1 :: l.stack }

/-- go-lexer `L.Rewind`: back by the length of the last rune's encoding (3 for a byte that is no rune), not before the
start of the token; nothing after the end of the source or with an empty stack. -/
def rewind : Lx Unit := fun l =>
  match l.stack with
  | [] => .ok () l
  | none :: st => .ok () { l with stack := st }
  | some r :: st => .ok () { l with pos := max l.start (l.pos - (encodeRune r).length), stack := st }

/-- go-lexer `L.Peek`. -/
def peek : Lx (Option Nat) := do
  let r ← next
  rewind
  pure r

/-- go-lexer `L.Current` as a part. -/
def current : Lx Bytes := fun l => .ok l.current l

/-- go-lexer `L.Emit`. -/
def emit (code : Int) : Lx Unit := fun l =>
  .ok () { l with toks := l.toks ++ [⟨code, l.current⟩], start := l.pos, stack := [] }

/-- go-lexer `L.Error` without an error handler. -/
def error : Lx Unit := fun _ => .panic .explicit

/-- `strings.ContainsRune` for an ASCII string and a rune or `EOFRune`. -/
def containsRune (chars : Bytes) : Option Nat → Bool
  | none => false
  | some r => chars.any fun c => c.toNat == r

/-- The loop of go-lexer `L.Take`. -/
def takeLoop (chars : Bytes) : Nat → Lx Unit
  | 0 => fun _ => .hang
  | n + 1 => do
    let r ← next
    if containsRune chars r then takeLoop chars n else rewind

/-- go-lexer `L.Take`; every round reads a byte, so the number of rounds is enough. -/
def take (chars : Bytes) : Lx Unit := fun l => takeLoop chars (l.source.length - l.pos + 1) l

/-- localelex.go:14 -/
def upperChars : Bytes := b!"ABCDEFGHIJKLMNOPQRSTUVWXYZ_"
/-- localelex.go:15 -/
def lowerChars : Bytes := b!"abcdefghijklmnopqrstuvwxyz_"
/-- localelex.go:16 -/
def digits : Bytes := b!"0123456789"
/-- localelex.go:17 -/
def whiteSpace : Bytes := b!" \t"
/-- localelex.go:18 -/
def newLine : Bytes := b!"\n\r"
/-- localelex.go:103 -/
def WHITESPACE : Int := 123987654

/-- Which grab function: localelex.go:20-23, `decode.grab`. -/
inductive Grab where
  | charList | stringList | charPairList | string | int | intList | msg
  deriving DecidableEq, Repr

open Tm Grab in
/-- localelex.go:28-44 -/
def ctypeMap : List (Bytes × Tm × Grab) := [
  (b!"upper", UPPER_STR, charList), (b!"lower", LOWER_STR, charList), (b!"alpha", ALPHA_STR, charList),
  (b!"digit", DIGIT_STR, charList), (b!"alnum", ALNUM_STR, charList), (b!"space", SPACE_STR, charList),
  (b!"cntrl", CNTRL_STR, charList), (b!"punct", PUNCT_STR, charList), (b!"graph", GRAPH_STR, charList),
  (b!"print", PRINT_STR, charList), (b!"xdigit", XDIGIT_STR, charList), (b!"blank", BLANK_STR, charList),
  (b!"charclass", CHARCLASS_STR, stringList), (b!"toupper", TOUPPER_STR, charPairList),
  (b!"tolower", TOLOWER_STR, charPairList)]

open Tm Grab in
/-- localelex.go:47-62 -/
def timeMap : List (Bytes × Tm × Grab) := [
  (b!"abday", ABDAY_STR, stringList), (b!"day", DAY_STR, stringList), (b!"abmon", ABMON_STR, stringList),
  (b!"mon", MON_STR, stringList), (b!"d_t_fmt", D_T_FMT_STR, string), (b!"d_fmt", D_FMT_STR, string),
  (b!"t_fmt", T_FMT_STR, string), (b!"am_pm", AM_PM_STR, stringList), (b!"t_fmt_ampm", T_FMT_AMPM_STR, string),
  (b!"era", ERA_STR, stringList), (b!"era_d_fmt", ERA_D_FMT_STR, string), (b!"era_t_fmt", ERA_T_FMT_STR, string),
  (b!"era_d_t_fmt", ERA_D_T_FMT_STR, string), (b!"alt_digits", ALT_DIGITS_STR, stringList)]

open Tm Grab in
/-- localelex.go:65-69 -/
def numericMap : List (Bytes × Tm × Grab) := [
  (b!"decimal_point", DECIMAL_POINT_STR, string), (b!"thousands_sep", THOUSANDS_SEP_STR, string),
  (b!"grouping", GROUPING_STR, int)]

open Tm Grab in
/-- localelex.go:72-94 -/
def monetaryMap : List (Bytes × Tm × Grab) := [
  (b!"int_curr_symbol", INT_CURR_SYMBOL_STR, string), (b!"currency_symbol", CURRENCY_SYMBOL_STR, string),
  (b!"mon_decimal_point", MON_DECIMAL_POINT_STR, string), (b!"mon_thousands_sep", MON_THOUSANDS_SEP_STR, string),
  (b!"mon_grouping", MON_GROUPING_STR, intList), (b!"positive_sign", POSITIVE_SIGN_STR, string),
  (b!"negative_sign", NEGATIVE_SIGN_STR, string), (b!"int_frac_digits", INT_FRAC_DIGITS_STR, int),
  (b!"frac_digits", FRAC_DIGITS_STR, int), (b!"p_cs_precedes", P_CS_PRECEDES_STR, int),
  (b!"p_sep_by_space", P_SEP_BY_SPACE_STR, int), (b!"n_cs_precedes", N_CS_PRECEDES_STR, int),
  (b!"n_sep_by_space", N_SEP_BY_SPACE_STR, int), (b!"p_sign_posn", P_SIGN_POSN_STR, int),
  (b!"n_sign_posn", N_SIGN_POSN_STR, int), (b!"int_p_cs_precedes", INT_P_CS_PRECEDES_STR, int),
  (b!"int_p_sep_by_space", INT_P_SEP_BY_SPACE_STR, int), (b!"int_n_cs_precedes", INT_N_CS_PRECEDES_STR, int),
  (b!"int_n_sep_by_space", INT_N_SEP_BY_SPACE_STR, int), (b!"int_p_sign_posn", INT_P_SIGN_POSN_STR, int),
  (b!"int_n_sign_posn", INT_N_SIGN_POSN_STR, int)]

open Tm Grab in
/-- localelex.go:97-100 -/
def msgMap : List (Bytes × Tm × Grab) := [(b!"yesexpr", YESEXPR_STR, msg), (b!"noexpr", NOEXPR_STR, msg)]

/-- localelex.go:171-176 `must`. -/
def must (g : Lx Bool) : Lx Unit := do
  let ok ← g
  if ok then pure () else error

/-- localelex.go:178-185 -/
def grabWhitespace : Lx Bool := do
  take whiteSpace
  let c ← current
  if c = [] then pure false else do
    emit WHITESPACE
    pure true

/-- localelex.go:186-193 -/
def grabNewline : Lx Bool := do
  take newLine
  let c ← current
  if c = [] then pure false else do
    emit Tm.EOL.code
    pure true

/-- localelex.go:201-203: as many rewinds as the current text has runes. -/
def rewinds : Nat → Lx Unit
  | 0 => pure ()
  | n + 1 => do
    rewind
    rewinds n

/-- localelex.go:194-208 -/
def grabChar : Lx Bool := do
  let r ← next
  if r ≠ some 60 then do
    rewind
    pure false
  else do
    take (upperChars ++ lowerChars ++ b!"-" ++ b!"_" ++ digits)
    let r ← next
    if r ≠ some 62 then do
      let c ← current
      rewinds (runes c).length
      pure false
    else do
      emit Tm.CHARSYMBOL.code
      pure true

/-- localelex.go:210-221, 247-258, 260-271, 354-365: things with semicolons between them. The four loops are the same
but for the function called; `ok` is their result variable. -/
def grabListLoop (g : Lx Bool) : Nat → Bool → Lx Bool
  | 0, _ => fun _ => .hang
  | n + 1, ok => do
    let more ← g
    if more then do
      let r ← next
      if r = some 59 then do
        emit Tm.SEMI.code
        grabListLoop g n true
      else do
        rewind
        pure true
    else pure ok

/-- localelex.go:222-245 -/
def grabCharPair : Lx Bool := do
  let r ← next
  if r ≠ some 40 then do
    rewind
    pure false
  else do
    emit Tm.LPAREN.code
    let ok ← grabChar
    if !ok then pure false else do
      let r ← next
      if r ≠ some 44 then do
        rewind
        pure false
      else do
        emit Tm.COMMA.code
        let ok ← grabChar
        if !ok then pure false else do
          let r ← next
          if r ≠ some 41 then do
            rewind
            pure false
          else do
            emit Tm.RPAREN.code
            pure true

/-- localelex.go:272-283 -/
def grabInt : Lx Bool := do
  take b!"-1234567890"
  let c ← current
  if c = [] then pure false else do
    if c = b!"-" ∨ (c.length > 2 ∧ 45 ∈ c.drop 1) then error else pure ()
    emit Tm.NUMBER.code
    pure true

/-- The position (of the model, go-lexer has no method for it). -/
def position : Lx Nat := fun l => .ok l.pos l

/-- localelex.go:286-315; `esc` is the value of the package variable `escapeChar`. -/
def grabEscapeInString (esc : Nat) : Lx Bool := do
  let r ← next
  if r = some 44 ∨ r = some 59 ∨ r = some 60 ∨ r = some 62 ∨ r = some esc then do
    emit Tm.CHAR.code
    pure true
  else if containsRune digits r then do
    let _ ← next
    let _ ← next
    emit Tm.OCTAL_CHAR.code
    pure true
  else if r = some 100 then do
    let _ ← next
    let _ ← next
    let r ← next
    if containsRune digits r then pure () else rewind
    emit Tm.DECIMAL_CHAR.code
    pure true
  else if r = some 120 then do
    let _ ← next
    let _ ← next
    emit Tm.HEX_CHAR.code
    pure true
  else do
    error
    pure false

/-- localelex.go:329-352: the loop of `grabString`. The lexer runs in its own goroutine while other lexers may assign to
`escapeChar`: `esc` gives the value it sees at each position. -/
def stringLoop (esc : Nat → Nat) : Nat → Bool → Lx Bool
  | 0, _ => fun _ => .hang
  | n + 1, escapeNext => do
    let r ← next
    if escapeNext then do
      rewind
      let p ← position
      let _ ← grabEscapeInString (esc p)
      stringLoop esc n false
    else if r = some 34 then do
      emit Tm.DQUOTE.code
      pure true
    else if r = some 10 then do
      error
      pure false
    else if r = some 92 then stringLoop esc n true
    else do
      emit Tm.CHAR.code
      stringLoop esc n false

/-- localelex.go:317-353 `grabString`; here the escape character is always a backslash. -/
def grabString (esc : Nat → Nat) (n : Nat) : Lx Bool := do
  let r ← peek
  if r ≠ some 34 then pure false else do
    let _ ← next
    let r ← peek
    if r = some 34 then do
      let _ ← next
      emit Tm.TWO_DOUBLE_QUOTE_STR.code
      pure true
    else do
      emit Tm.DQUOTE.code
      stringLoop esc n false

/-- localelex.go:372-373 -/
def msgLoop : Nat → Lx Unit
  | 0 => fun _ => .hang
  | n + 1 => do
    let r ← next
    if r ≠ some 34 then msgLoop n else pure ()

/-- localelex.go:366-379 -/
def grabMsg (n : Nat) : Lx Bool := do
  let r ← next
  if r ≠ some 34 then do
    rewind
    pure false
  else do
    emit Tm.DQUOTE.code
    msgLoop n
    rewind
    emit Tm.EXTENDED_REG_EXP.code
    let _ ← next
    emit Tm.DQUOTE.code
    pure true

/-- The grab functions of the tables. -/
def Grab.run (esc : Nat → Nat) (n : Nat) : Grab → Lx Bool
  | .charList => grabListLoop grabChar n false
  | .stringList => grabListLoop (grabString esc n) n false
  | .charPairList => grabListLoop grabCharPair n false
  | .string => grabString esc n
  | .int => grabInt
  | .intList => grabListLoop grabInt n false
  | .msg => grabMsg n

/-- The categories with a table: name, token, table. -/
inductive Cat where
  | ctype | monetary | numeric | time | messages
  deriving DecidableEq, Repr

/-- localelex.go:138-155: the header. -/
def Cat.name : Cat → Bytes
  | .ctype => b!"LC_CTYPE"
  | .monetary => b!"LC_MONETARY"
  | .numeric => b!"LC_NUMERIC"
  | .time => b!"LC_TIME"
  | .messages => b!"LC_MESSAGES"

/-- localelex.go:139-155: the token. -/
def Cat.tm : Cat → Tm
  | .ctype => .LC_CTYPE_STR
  | .monetary => .LC_MONETARY_STR
  | .numeric => .LC_NUMERIC_STR
  | .time => .LC_TIME_STR
  | .messages => .LC_MESSAGES_STR

/-- localelex.go:140-155: the table. -/
def Cat.map : Cat → List (Bytes × Tm × Grab)
  | .ctype => ctypeMap
  | .monetary => monetaryMap
  | .numeric => numericMap
  | .time => timeMap
  | .messages => msgMap

/-- The state functions. -/
inductive St where
  | category | generic (c : Cat) | collate | orderStart | order
  deriving DecidableEq, Repr

/-- localelex.go:131-164 `sCategory`; `none` is the end. -/
def sCategory : Lx (Option St) := do
  take (upperChars ++ b!"_")
  let header ← current
  let found : Option (Tm × St) :=
    if header = b!"LC_CTYPE" then some (.LC_CTYPE_STR, .generic .ctype)
    else if header = b!"LC_COLLATE" then some (.LC_COLLATE_STR, .collate)
    else if header = b!"LC_MONETARY" then some (.LC_MONETARY_STR, .generic .monetary)
    else if header = b!"LC_NUMERIC" then some (.LC_NUMERIC_STR, .generic .numeric)
    else if header = b!"LC_TIME" then some (.LC_TIME_STR, .generic .time)
    else if header = b!"LC_MESSAGES" then some (.LC_MESSAGES_STR, .generic .messages)
    else none
  match found with
  | none => pure none
  | some (tm, st) => do
    emit tm.code
    take whiteSpace
    must grabNewline
    pure (some st)

/-- localelex.go:455-487: the state function of a category with a table. -/
def sGeneric (esc : Nat → Nat) (n : Nat) (c : Cat) : Lx (Option St) := do
  let _ ← grabWhitespace
  take (upperChars ++ lowerChars ++ b!"_")
  let word ← current
  if word = b!"END" then do
    emit Tm.END_STR.code
    must grabWhitespace
    take upperChars
    let cur ← current
    if cur ≠ c.name then error else pure ()
    emit c.tm.code
    let _ ← grabWhitespace
    must grabNewline
    pure (some .category)
  else
    match c.map.find? (fun e => e.1 == word) with
    | some e => do
      emit e.2.1.code
      must grabWhitespace
      must (e.2.2.run esc n)
      must grabNewline
      pure (some (.generic c))
    | none => do
      error
      pure (some (.generic c))

/-- localelex.go:381-422 `sCollateCategory`. -/
def sCollate (esc : Nat → Nat) (n : Nat) : Lx (Option St) := do
  let _ ← grabWhitespace
  take (upperChars ++ lowerChars ++ b!"_")
  let word ← current
  if word = b!"END" then do
    emit Tm.END_STR.code
    must grabWhitespace
    take upperChars
    let cur ← current
    if cur ≠ b!"LC_COLLATE" then error else pure ()
    emit Tm.LC_COLLATE_STR.code
    let _ ← grabNewline
    pure (some .category)
  else if word = b!"order_start" then do
    emit Tm.ORDER_START_STR.code
    pure (some .orderStart)
  else if word = b!"collating-element" then do
    emit Tm.COLLATING_ELEMENT_STR.code
    must grabWhitespace
    must grabChar
    must grabWhitespace
    take b!"from"
    let cur ← current
    if cur ≠ b!"from" then error else pure ()
    emit Tm.FROM_STR.code
    must grabWhitespace
    must (grabString esc n)
    let _ ← grabWhitespace
    must grabNewline
    pure (some .collate)
  else if word = b!"collating-symbol" then do
    emit Tm.COLLATING_SYMBOL_STR.code
    must grabWhitespace
    must (grabString esc n)
    let _ ← grabWhitespace
    must grabNewline
    pure (some .collate)
  else pure (some .collate)

/-- localelex.go:424-439 `sCollateOrderStart`. -/
def sOrderStart : Lx (Option St) := do
  let _ ← grabWhitespace
  take lowerChars
  let cur ← current
  if cur = [] then do
    must grabNewline
    pure (some .order)
  else if cur = b!"forward" then do
    emit Tm.FORWARD_STR.code
    pure (some .orderStart)
  else if cur = b!"backward" then do
    emit Tm.BACKWARD_STR.code
    pure (some .orderStart)
  else if cur = b!"position" then do
    emit Tm.POSITION_STR.code
    pure (some .orderStart)
  else pure (some .orderStart)

/-- localelex.go:441-453 `sCollateOrder`. -/
def sOrder : Lx (Option St) := do
  let ok ← grabChar
  if !ok then do
    take lowerChars
    let cur ← current
    if cur ≠ b!"order_end" then error else pure ()
    emit Tm.ORDER_END_STR.code
    must grabNewline
    pure (some .collate)
  else do
    must grabNewline
    pure (some .order)

/-- A call of a state function. -/
def St.call (esc : Nat → Nat) (n : Nat) : St → Lx (Option St)
  | .category => sCategory
  | .generic c => sGeneric esc n c
  | .collate => sCollate esc n
  | .orderStart => sOrderStart
  | .order => sOrder

/-- go-lexer `L.run`, with `n` rounds for every inner loop. -/
def runLoop (esc : Nat → Nat) (n : Nat) : Nat → St → Lx Unit
  | 0, _ => fun _ => .hang
  | k + 1, st => do
    let next ← st.call esc n
    match next with
    | none => pure ()
    | some st => runLoop esc n k st

/-- Lexing a text without comments (`sInit`, localelex.go:126-129, goes on with `sCategory`). -/
def lexText (esc : Nat → Nat) (n : Nat) (source : Bytes) : Res Unit := runLoop esc n n .category { source := source }

/-- localelex.go:112-123 `Lex`, for the whole stream: whitespace tokens are left out. -/
def visible (toks : List Tok) : List Tok := toks.filter fun t => t.code != WHITESPACE

/-- What the parser gets from `NewLexer(input)`, localelex.go:544-552, if no other lexer is made until it is done: the tokens, or that the lexer panics or is still
running after `n` rounds. -/
def newLexer (n : Nat) (input : Bytes) : Res (List Tok) :=
  match removeComments input with
  | .error p => .panic p
  | .ok (text, esc) =>
    match lexText (fun _ => esc) n text with
    | .ok _ l => .ok (visible l.toks) l
    | .panic p => .panic p
    | .hang => .hang

end Locale
