import Verif.Locale.Tables
import Verif.Locale.Grammar

/-!
# pkg/locale/y.go: the generated parser
-/

namespace Locale
open Go

/-- An array access `t[i]`. -/
def at_ (t : List Int) (i : Int) : M Int :=
  if i < 0 then .error .index
  else match t[i.toNat]? with
    | some v => .ok v
    | none => .error .index

/-- y.go:18-25 `assignMonetaryString`. -/
def assignMonetaryString (tokVal value : Bytes) (d : Def) : Def :=
  if tokVal = b!"int_curr_symbol" then { d with intCurrSymbol := value } else d

/-- y.go:127 `INT_FRAC_DIGITS_STR`. -/
abbrev intFracDigitsStr : Int := 57413

/-- y.go:28-39 `assignMonetaryNumber`. -/
def assignMonetaryNumber (tok : Int) (value : Bytes) (d : Def) : M Def :=
  match atoi? value with
  | none => .error .explicit
  | some n => if tok = intFracDigitsStr then .ok { d with intFracDigits := n } else .ok d

/-- y.go:44-50: the loop of `assignMonetaryGrouping`. -/
def atoiAll : List Bytes → M (List Int)
  | [] => .ok []
  | v :: vs =>
    match atoi? v with
    | none => .error .explicit
    | some n => do
      let ns ← atoiAll vs
      .ok (n :: ns)

/-- y.go:41-52 `assignMonetaryGrouping` (its first argument is not used). -/
def assignMonetaryGrouping (value : Bytes) (d : Def) : M Def := do
  let g ← atoiAll (split value b!";")
  .ok { d with monGrouping := g }

/-- y.go:55-58 `yySymType`: a stack entry. -/
structure Entry where
  state : Int
  val : Bytes
  deriving DecidableEq, Repr

/-- The variables of `Parse` (y.go:668-687) at the label `yynewstate`. There `yystate` is the state on top of the
stack. -/
structure Conf where
  /-- `yyS[0..yyp]`, top first -/
  stack : List Entry
  /-- the texts in `yyS` above `yyp`, left over from popped entries (and empty from there on) -/
  above : List Bytes
  /-- `yyrcvr.char` -/
  char : Int
  /-- `yytoken` -/
  token : Int
  /-- `yyrcvr.lval.val` -/
  lval : Bytes
  /-- `yyVAL.val` -/
  yyval : Bytes
  /-- `Errflag` -/
  errflag : Nat
  /-- what the lexer will return -/
  input : List Tok
  /-- the global `def` -/
  d : Def
  deriving Repr

/-- The outcome of one round from `yynewstate`. -/
inductive Step where
  | next (c : Conf)
  | ret (code : Int) (d : Def)

/-- y.go:646-652: the loop over `yyTok3`; `token` is the value of the variable. -/
def tok3 (char : Int) (token : Int) : List Int → M Int
  | [] => .ok token
  | [a] => if a = char then .error .index else .ok a
  | a :: b :: r => if a = char then .ok b else tok3 char a r

/-- y.go:629-662 `yylex1` without the call of the lexer: the token number of a character code. -/
def yylex1 (char : Int) : M Int := do
  let token ←
    if char ≤ 0 then at_ yyTok1 0
    else if char < yyTok1.length then at_ yyTok1 char
    else if yyPrivate ≤ char ∧ char < yyPrivate + yyTok2.length then at_ yyTok2 (char - yyPrivate)
    else tok3 char 0 yyTok3
  if token = 0 then at_ yyTok2 1 else .ok token

/-- y.go:715-717 and 738-740: reads a token if there is none. At the end `Lexer.Lex` (localelex.go:112-123) returns
-1 and leaves `lval` alone, as often as it is called. -/
def lex (c : Conf) : M Conf :=
  if c.char < 0 then
    match c.input with
    | [] => do
      let t ← yylex1 (-1)
      .ok { c with char := -1, token := t }
    | tok :: rest => do
      let t ← yylex1 tok.code
      .ok { c with char := tok.code, token := t, lval := tok.val, input := rest }
  else .ok c

/-- y.go:695-708, label `yystack`. Growing the array is not observable. -/
def push (c : Conf) (state : Int) : Conf :=
  { c with stack := ⟨state, c.yyval⟩ :: c.stack, above := c.above.tail }

/-- y.go:743-749: the position after the pair for the state in the exception table. -/
def findExca (state : Int) : List Int → M (List Int)
  | a :: b :: r => if a = -1 ∧ b = state then .ok r else findExca state r
  | _ => .error .index

/-- y.go:750-756: the entry for the token. -/
def excaAct (token : Int) : List Int → M Int
  | a :: b :: r => if a < 0 ∨ a = token then .ok b else excaAct token r
  | _ => .error .index

/-- y.go:841-885: the semantic actions. `rhs` are `yyDollar[1]`, `yyDollar[2]`, …; `v` is the text of `yyVAL`. -/
def action (n : Int) (rhs : List Entry) (v : Bytes) (d : Def) : M (Bytes × Def) :=
  if n = 15 then
    match rhs with
    | [a, b] => .ok (a.val ++ b.val, d)
    | _ => .error .index
  else if n = 120 then
    match rhs with
    | [a, b, _] => .ok (v, assignMonetaryString a.val b.val d)
    | _ => .error .index
  else if n = 121 then
    match rhs with
    | [a, b, _] => do
      let d ← assignMonetaryNumber a.state b.val d
      .ok (v, d)
    | _ => .error .index
  else if n = 122 then
    match rhs with
    | [a, _, _] => do
      let d ← assignMonetaryNumber a.state b!"-1" d
      .ok (v, d)
    | _ => .error .index
  else if n = 123 then
    match rhs with
    | [_, b, _] => do
      let d ← assignMonetaryGrouping b.val d
      .ok (v, d)
    | _ => .error .index
  else if n = 130 then
    match rhs with
    | [_, b, _] => .ok (b.val, d)
    | _ => .error .index
  else if n = 148 then
    match rhs with
    | [a, _, b] => .ok (a.val ++ b!";" ++ b.val, d)
    | _ => .error .index
  else .ok (v, d)

/-- y.go:827-839: the state after a reduction to nonterminal `n` in state `s`. -/
def goto_ (n s : Int) : M Int := do
  let g ← at_ yyPgo n
  let j := g + s + 1
  if j ≥ yyLast then at_ yyAct g
  else do
    let s' ← at_ yyAct j
    let k ← at_ yyChk s'
    if k ≠ -n then at_ yyAct g else .ok s'

/-- y.go:808-886: the reduction by production `n`. -/
def reduce (c : Conf) (n : Int) : M Step := do
  let k ← at_ yyR2 n
  let rhs := (c.stack.take k.toNat).reverse
  match c.stack.drop k.toNat with
  | [] => .error .index
  | e :: below => do
    let above := rhs.map Entry.val ++ c.above
    let nt ← at_ yyR1 n
    let s ← goto_ nt e.state
    let (v, d) ← action n rhs (above.headD []) c.d
    .ok (.next (push { c with stack := e :: below, above := above, yyval := v, d := d } s))

/-- y.go:776-793: pops states until one of them can shift `error`. -/
def recover (c : Conf) : List Entry → List Bytes → M Step
  | [], _ => .ok (.ret 1 c.d)
  | e :: rest, above => do
    let p ← at_ yyPact e.state
    let n := p + yyErrCode
    if 0 ≤ n ∧ n < yyLast then do
      let s ← at_ yyAct n
      let k ← at_ yyChk s
      if k = yyErrCode then .ok (.next (push { c with stack := e :: rest, above := above, errflag := 3 } s))
      else recover c rest (e.val :: above)
    else recover c rest (e.val :: above)

/-- y.go:761-805: a syntax error. `handler` says whether the lexer has an `ErrorHandler`; without one
`yylex.Error` panics (`NewLexer` sets none). The text of the message is in ErrorMessage.lean. -/
def onError (handler : Bool) (c : Conf) : M Step :=
  if c.errflag = 0 then
    if handler then recover c c.stack c.above else .error .explicit
  else if c.errflag ≤ 2 then recover c c.stack c.above
  else if c.errflag = 3 then
    if c.token = yyEofCode then .ok (.ret 1 c.d)
    else .ok (.next { c with char := -1, token := -1 })
  else reduce c 0

/-- y.go:761, 808: what to do by default action `n`. -/
def act (handler : Bool) (c : Conf) (n : Int) : M Step :=
  if n = 0 then onError handler c else reduce c n

/-- y.go:734-760, label `yydefault`. -/
def dflt (handler : Bool) (c : Conf) (s : Int) : M Step := do
  let n ← at_ yyDef s
  if n = -2 then do
    let c ← lex c
    let r ← findExca s yyExca
    let n ← excaAct c.token r
    if n < 0 then .ok (.ret 0 c.d) else act handler c n
  else act handler c n

/-- y.go:710-732, label `yynewstate`. -/
def step (handler : Bool) (c : Conf) : M Step :=
  match c.stack with
  | [] => .error .index
  | e :: _ => do
    let n ← at_ yyPact e.state
    if n ≤ yyFlag then dflt handler c e.state
    else do
      let c ← lex c
      let n := n + c.token
      if n < 0 ∨ n ≥ yyLast then dflt handler c e.state
      else do
        let s ← at_ yyAct n
        let k ← at_ yyChk s
        if k = c.token then
          .ok (.next (push { c with char := -1, token := -1, yyval := c.lval, errflag := c.errflag - 1 } s))
        else dflt handler c e.state

/-- y.go:668-887 `Parse`, at most `fuel` rounds (`none`: more are needed). -/
def run (handler : Bool) : Nat → Conf → Option (M (Int × Def))
  | 0, _ => none
  | fuel + 1, c =>
    match step handler c with
    | .error e => some (.error e)
    | .ok (.ret code d) => some (.ok (code, d))
    | .ok (.next c) => run handler fuel c

/-- y.go:670-691: the start. -/
def start (toks : List Tok) (d : Def) : Conf :=
  { stack := [⟨0, []⟩], above := [], char := -1, token := -1, lval := [], yyval := [], errflag := 0, input := toks, d }

end Locale
