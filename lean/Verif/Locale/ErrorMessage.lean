import Verif.Locale.ErrorPlace

/-!
# What the message of a syntax error says (C118)
-/

namespace Locale
open Go

/-! ## The model -/

/-- y.go:151-250 `yyToknames`. -/
def yyToknames : List Bytes := [
  b!"$end", b!"error", b!"$unk", b!"LOC_NAME", b!"CHAR", b!"NUMBER", b!"COLLSYMBOL", b!"COLLELEMENT", b!"CHARSYMBOL",
  b!"OCTAL_CHAR", b!"HEX_CHAR", b!"DECIMAL_CHAR", b!"CHARCLASS", b!"ELLIPSIS", b!"EXTENDED_REG_EXP", b!"EOL",
  b!"ESCAPE_CHAR_STR", b!"COMMENT_CHAR_STR", b!"COPY_STR", b!"LC_CTYPE_STR", b!"CHARCLASS_STR", b!"UPPER_STR",
  b!"LOWER_STR", b!"ALPHA_STR", b!"DIGIT_STR", b!"PUNCT_STR", b!"XDIGIT_STR", b!"SPACE_STR", b!"PRINT_STR",
  b!"GRAPH_STR", b!"BLANK_STR", b!"CNTRL_STR", b!"ALNUM_STR", b!"TOUPPER_STR", b!"TOLOWER_STR", b!"LC_COLLATE_STR",
  b!"COLLATING_SYMBOL_STR", b!"COLLATING_ELEMENT_STR", b!"ORDER_START_STR", b!"FORWARD_STR", b!"BACKWARD_STR",
  b!"POSITION_STR", b!"UNDEFINED_STR", b!"IGNORE_STR", b!"END_STR", b!"LC_TIME_STR", b!"ERA_STR", b!"ERA_D_FMT_STR",
  b!"ERA_T_FMT_STR", b!"ALT_DIGITS_STR", b!"ERA_D_T_FMT_STR", b!"AM_PM_STR", b!"D_T_FMT_STR", b!"D_FMT_STR",
  b!"T_FMT_STR", b!"T_FMT_AMPM_STR", b!"ABDAY_STR", b!"DAY_STR", b!"ABMON_STR", b!"MON_STR", b!"LC_NUMERIC_STR",
  b!"DECIMAL_POINT_STR", b!"THOUSANDS_SEP_STR", b!"LC_MONETARY_STR", b!"INT_P_SIGN_POSN_STR",
  b!"INT_N_CS_PRECEDES_STR", b!"INT_P_CS_PRECEDES_STR", b!"P_SIGN_POSN_STR", b!"N_CS_PRECEDES_STR",
  b!"P_CS_PRECEDES_STR", b!"INT_FRAC_DIGITS_STR", b!"FRAC_DIGITS_STR", b!"P_SEP_BY_SPACE_STR",
  b!"N_SEP_BY_SPACE_STR", b!"N_SIGN_POSN_STR", b!"INT_P_SEP_BY_SPACE_STR", b!"INT_N_SEP_BY_SPACE_STR",
  b!"INT_N_SIGN_POSN_STR", b!"NEGATIVE_SIGN_STR", b!"POSITIVE_SIGN_STR", b!"MON_DECIMAL_POINT_STR",
  b!"INT_CURR_SYMBOL_STR", b!"CURRENCY_SYMBOL_STR", b!"MON_THOUSANDS_SEP_STR", b!"LC_MESSAGES_STR", b!"NOEXPR_STR",
  b!"YESEXPR_STR", b!"FROM_STR", b!"ORDER_END_STR", b!"MON_GROUPING_STR", b!"GROUPING_STR", b!"NEGATIVE_ONE_STR",
  b!"TWO_DOUBLE_QUOTE_STR", b!"'\"'", b!"';'", b!"'('", b!"','", b!"')'"]

/-- y.go:546-553 `yyTokname`. -/
def tokname (c : Int) : Bytes :=
  if 1 ≤ c ∧ c - 1 < yyToknames.length then
    match yyToknames[(c - 1).toNat]? with
    | some n => if n = [] then b!"tok-" ++ itoa c else n
    | none => []
  else b!"tok-" ++ itoa c

/-- y.go:583-592: the tokens that can be shifted, in order; `none` if a fifth one is found. -/
def shiftLoop (base : Int) : List Int → List Int → M (Option (List Int))
  | [], expected => .ok (some expected)
  | tok :: r, expected =>
    if 0 ≤ base + tok ∧ base + tok < yyLast then do
      let a ← at_ yyAct (base + tok)
      let k ← at_ yyChk a
      if k = tok then
        if expected.length = 4 then .ok none else shiftLoop base r (expected ++ [tok])
      else shiftLoop base r expected
    else shiftLoop base r expected

/-- y.go:600-615: the entries of the exception table for the state. -/
def excaLoop : List Int → List Int → M (Option (List Int))
  | a :: b :: r, expected =>
    if 0 ≤ a then
      if a < 4 ∨ b = 0 then excaLoop r expected
      else if expected.length = 4 then .ok none
      else excaLoop r (expected ++ [a])
    else if b ≠ 0 then .ok none
    else .ok (some expected)
  | _, _ => .error .index

/-- y.go:618-625: the end of the message; `i` says whether it is the first token. -/
def expectLoop : Bool → List Int → Bytes
  | _, [] => []
  | first, tok :: r => (if first then b!", expecting " else b!" or ") ++ tokname tok ++ expectLoop false r

/-- y.go:564-627 `yyErrorMessage`. `verbose` is the variable `yyErrorVerbose` (y.go:518). `yyErrorMessages` (y.go:506-510) is empty. -/
def errorMessage (verbose : Bool) (state token : Int) : M Bytes :=
  if verbose = false then .ok b!"syntax error"
  else do
    let res := b!"syntax error: unexpected " ++ tokname token
    let base ← at_ yyPact state
    let e ← shiftLoop base ((List.range 95).map fun i : Nat => (i : Int) + 4) []
    match e with
    | none => .ok res
    | some expected => do
      let n ← at_ yyDef state
      if n = -2 then do
        let r ← findExca state yyExca
        let e ← excaLoop r expected
        match e with
        | none => .ok res
        | some expected => .ok (res ++ expectLoop true expected)
      else .ok (res ++ expectLoop true expected)

/-! ## The specification -/

/-- The name of a terminal: as in localedef.y:49-153. -/
def Tm.name : Tm → Bytes
  | .LOC_NAME => b!"LOC_NAME"
  | .CHAR => b!"CHAR"
  | .NUMBER => b!"NUMBER"
  | .COLLSYMBOL => b!"COLLSYMBOL"
  | .COLLELEMENT => b!"COLLELEMENT"
  | .CHARSYMBOL => b!"CHARSYMBOL"
  | .OCTAL_CHAR => b!"OCTAL_CHAR"
  | .HEX_CHAR => b!"HEX_CHAR"
  | .DECIMAL_CHAR => b!"DECIMAL_CHAR"
  | .CHARCLASS => b!"CHARCLASS"
  | .ELLIPSIS => b!"ELLIPSIS"
  | .EXTENDED_REG_EXP => b!"EXTENDED_REG_EXP"
  | .EOL => b!"EOL"
  | .ESCAPE_CHAR_STR => b!"ESCAPE_CHAR_STR"
  | .COMMENT_CHAR_STR => b!"COMMENT_CHAR_STR"
  | .COPY_STR => b!"COPY_STR"
  | .LC_CTYPE_STR => b!"LC_CTYPE_STR"
  | .CHARCLASS_STR => b!"CHARCLASS_STR"
  | .UPPER_STR => b!"UPPER_STR"
  | .LOWER_STR => b!"LOWER_STR"
  | .ALPHA_STR => b!"ALPHA_STR"
  | .DIGIT_STR => b!"DIGIT_STR"
  | .PUNCT_STR => b!"PUNCT_STR"
  | .XDIGIT_STR => b!"XDIGIT_STR"
  | .SPACE_STR => b!"SPACE_STR"
  | .PRINT_STR => b!"PRINT_STR"
  | .GRAPH_STR => b!"GRAPH_STR"
  | .BLANK_STR => b!"BLANK_STR"
  | .CNTRL_STR => b!"CNTRL_STR"
  | .ALNUM_STR => b!"ALNUM_STR"
  | .TOUPPER_STR => b!"TOUPPER_STR"
  | .TOLOWER_STR => b!"TOLOWER_STR"
  | .LC_COLLATE_STR => b!"LC_COLLATE_STR"
  | .COLLATING_SYMBOL_STR => b!"COLLATING_SYMBOL_STR"
  | .COLLATING_ELEMENT_STR => b!"COLLATING_ELEMENT_STR"
  | .ORDER_START_STR => b!"ORDER_START_STR"
  | .FORWARD_STR => b!"FORWARD_STR"
  | .BACKWARD_STR => b!"BACKWARD_STR"
  | .POSITION_STR => b!"POSITION_STR"
  | .UNDEFINED_STR => b!"UNDEFINED_STR"
  | .IGNORE_STR => b!"IGNORE_STR"
  | .END_STR => b!"END_STR"
  | .LC_TIME_STR => b!"LC_TIME_STR"
  | .ERA_STR => b!"ERA_STR"
  | .ERA_D_FMT_STR => b!"ERA_D_FMT_STR"
  | .ERA_T_FMT_STR => b!"ERA_T_FMT_STR"
  | .ALT_DIGITS_STR => b!"ALT_DIGITS_STR"
  | .ERA_D_T_FMT_STR => b!"ERA_D_T_FMT_STR"
  | .AM_PM_STR => b!"AM_PM_STR"
  | .D_T_FMT_STR => b!"D_T_FMT_STR"
  | .D_FMT_STR => b!"D_FMT_STR"
  | .T_FMT_STR => b!"T_FMT_STR"
  | .T_FMT_AMPM_STR => b!"T_FMT_AMPM_STR"
  | .ABDAY_STR => b!"ABDAY_STR"
  | .DAY_STR => b!"DAY_STR"
  | .ABMON_STR => b!"ABMON_STR"
  | .MON_STR => b!"MON_STR"
  | .LC_NUMERIC_STR => b!"LC_NUMERIC_STR"
  | .DECIMAL_POINT_STR => b!"DECIMAL_POINT_STR"
  | .THOUSANDS_SEP_STR => b!"THOUSANDS_SEP_STR"
  | .LC_MONETARY_STR => b!"LC_MONETARY_STR"
  | .INT_P_SIGN_POSN_STR => b!"INT_P_SIGN_POSN_STR"
  | .INT_N_CS_PRECEDES_STR => b!"INT_N_CS_PRECEDES_STR"
  | .INT_P_CS_PRECEDES_STR => b!"INT_P_CS_PRECEDES_STR"
  | .P_SIGN_POSN_STR => b!"P_SIGN_POSN_STR"
  | .N_CS_PRECEDES_STR => b!"N_CS_PRECEDES_STR"
  | .P_CS_PRECEDES_STR => b!"P_CS_PRECEDES_STR"
  | .INT_FRAC_DIGITS_STR => b!"INT_FRAC_DIGITS_STR"
  | .FRAC_DIGITS_STR => b!"FRAC_DIGITS_STR"
  | .P_SEP_BY_SPACE_STR => b!"P_SEP_BY_SPACE_STR"
  | .N_SEP_BY_SPACE_STR => b!"N_SEP_BY_SPACE_STR"
  | .N_SIGN_POSN_STR => b!"N_SIGN_POSN_STR"
  | .INT_P_SEP_BY_SPACE_STR => b!"INT_P_SEP_BY_SPACE_STR"
  | .INT_N_SEP_BY_SPACE_STR => b!"INT_N_SEP_BY_SPACE_STR"
  | .INT_N_SIGN_POSN_STR => b!"INT_N_SIGN_POSN_STR"
  | .NEGATIVE_SIGN_STR => b!"NEGATIVE_SIGN_STR"
  | .POSITIVE_SIGN_STR => b!"POSITIVE_SIGN_STR"
  | .MON_DECIMAL_POINT_STR => b!"MON_DECIMAL_POINT_STR"
  | .INT_CURR_SYMBOL_STR => b!"INT_CURR_SYMBOL_STR"
  | .CURRENCY_SYMBOL_STR => b!"CURRENCY_SYMBOL_STR"
  | .MON_THOUSANDS_SEP_STR => b!"MON_THOUSANDS_SEP_STR"
  | .LC_MESSAGES_STR => b!"LC_MESSAGES_STR"
  | .NOEXPR_STR => b!"NOEXPR_STR"
  | .YESEXPR_STR => b!"YESEXPR_STR"
  | .FROM_STR => b!"FROM_STR"
  | .ORDER_END_STR => b!"ORDER_END_STR"
  | .MON_GROUPING_STR => b!"MON_GROUPING_STR"
  | .GROUPING_STR => b!"GROUPING_STR"
  | .NEGATIVE_ONE_STR => b!"NEGATIVE_ONE_STR"
  | .TWO_DOUBLE_QUOTE_STR => b!"TWO_DOUBLE_QUOTE_STR"
  | .DQUOTE => b!"'\"'"
  | .SEMI => b!"';'"
  | .LPAREN => b!"'('"
  | .COMMA => b!"','"
  | .RPAREN => b!"')'"

/-- The list of what is expected. -/
def expecting : List Tm → Bytes
  | [] => []
  | x :: r => b!", expecting " ++ x.name ++ (r.map fun y => b!" or " ++ y.name).flatten

/-- The token can come next. -/
def CanFollow (toks : List Tok) (x : Tm) : Prop := ∃ ts ws : List Tm, toks.map Tok.code = ts.map Tm.code ∧ Grammatical (ts ++ x :: ws)

/-- What the message calls the token at the place of the error. -/
def Describes (found : Bytes) : Option Tok → Prop
  | none => found = b!"$end"
  | some t => (∃ x : Tm, x.code = t.code ∧ found = x.name) ∨ ((∀ x : Tm, x.code ≠ t.code) ∧ (found = b!"$unk" ∨ found = b!"error"))

/-! ## Proofs -/

theorem tokname_tm (x : Tm) : tokname (Sym.t x).num = x.name := by
  cases x <;> decide +kernel

/-- Different tokens have different names. -/
theorem names_differ : (Tm.list.map Tm.name).Nodup := by decide +kernel

theorem expectLoop_map (xs : List Tm) : expectLoop true (xs.map fun x => (Sym.t x).num) = expecting xs := by
  have h : ∀ ys : List Tm, expectLoop false (ys.map fun x => (Sym.t x).num) = (ys.map fun y => b!" or " ++ y.name).flatten := by
    intro ys
    induction ys with
    | nil => rfl
    | cons y ys ih =>
      simp only [List.map_cons, expectLoop, List.flatten_cons, ih, tokname_tm, Bool.false_eq_true, if_false]
  cases xs with
  | nil => rfl
  | cons x xs => simp only [List.map_cons, expectLoop, expecting, h, tokname_tm, if_true]

/-- The token can be shifted with this entry of `yyPact`. -/
def canShift (base tok : Int) : Bool := decide (0 ≤ base + tok ∧ base + tok < 468 ∧ chkP (actP (base + tok).toNat).toNat = tok)

theorem shiftLoop_spec (base : Int) (l acc : List Int) (ha : acc.length ≤ 4) :
    shiftLoop base l acc = .ok (if (acc ++ l.filter (canShift base)).length ≤ 4 then some (acc ++ l.filter (canShift base)) else none) := by
  induction l generalizing acc with
  | nil => simp [shiftLoop, ha]
  | cons tok r ih =>
    unfold shiftLoop
    by_cases hb : 0 ≤ base + tok ∧ base + tok < yyLast
    · rw [if_pos hb]
      obtain ⟨x, hx, hx', hx3⟩ := act_bound hb.1 hb.2
      simp only [hx, at_chk hx3, bind, Except.bind]
      have hcs : canShift base tok = decide (chkP x = tok) := by
        simp only [canShift, hx', Int.toNat_natCast]
        simp only [yyLast] at hb
        simp [hb]
      by_cases hk : chkP x = tok
      · rw [if_pos hk]
        have hcs' : canShift base tok = true := by rw [hcs]; simp [hk]
        rw [List.filter_cons_of_pos hcs']
        by_cases h4 : acc.length = 4
        · rw [if_pos h4, if_neg (by simp; omega)]
        · rw [if_neg h4, ih _ (by simp; omega)]
          simp
      · rw [if_neg hk]
        have hcs' : ¬canShift base tok = true := by rw [hcs]; simp [hk]
        rw [List.filter_cons_of_neg hcs', ih _ ha]
    · rw [if_neg hb]
      have hcs' : ¬canShift base tok = true := by
        simp only [canShift, decide_eq_true_eq]
        simp only [yyLast] at hb
        intro h
        exact hb ⟨h.1, h.2.1⟩
      rw [List.filter_cons_of_neg hcs', ih _ ha]

theorem tms_range : ((List.range 95).map fun i : Nat => (i : Int) + 4) = Tm.list.map fun x => (Sym.t x).num := by decide +kernel

/-- The tokens that can be shifted in a state. -/
def shiftable (s : Nat) : List Tm := Tm.list.filter fun x => canShift (pactP s) (Sym.t x).num

/-- What the message is. -/
theorem errorMessage_spec {s : Nat} (hs : s < 316) (token : Int) :
    errorMessage true s token = .ok (b!"syntax error: unexpected " ++ tokname token ++
      expecting (if (shiftable s).length ≤ 4 then shiftable s else [])) := by
  have hsh : ((Tm.list.map fun x => (Sym.t x).num).filter (canShift (pactP s))) = (shiftable s).map fun x => (Sym.t x).num := by
    rw [List.filter_map]
    rfl
  simp only [errorMessage, Bool.true_eq_false, if_false, at_pact hs, bind, Except.bind, tms_range,
    shiftLoop_spec _ _ [] (show ([] : List Int).length ≤ 4 by simp), hsh, List.nil_append, List.length_map]
  by_cases h4 : (shiftable s).length ≤ 4
  · simp only [if_pos h4, at_def hs]
    have hred := List.all_eq_true.mp reds_ok s (by simp; omega)
    unfold redOK at hred
    by_cases h2 : defP s = -2
    · rw [if_neg (by omega)] at hred
      simp only [Bool.or_eq_true, Bool.and_eq_true, beq_iff_eq] at hred
      obtain rfl : s = 1 := by omega
      simp only [if_pos h2]
      rw [show ((1 : Nat) : Int) = 1 from rfl, yyExca_eq]
      simp [findExca, excaLoop, expectLoop_map]
    · simp only [if_neg h2, expectLoop_map]
  · simp [if_neg h4, expecting]

/-- What can be shifted can follow. -/
theorem shiftable_follows {st : List Entry} {xs : List Sym} {vs : List Bytes} (h : StackOK st xs vs) {e : Entry} {below : List Entry}
    (hst : st = e :: below) {s : Nat} (he : e.state = s) {x : Tm} (hx : x ∈ shiftable s) :
    ∃ ws : List Tm, ∀ ts, Generates xs.reverse ts → Grammatical (ts ++ x :: ws) := by
  subst hst
  obtain ⟨s', hs, hs3⟩ := h.top
  obtain rfl : s' = s := by omega
  simp only [shiftable, List.mem_filter, canShift, decide_eq_true_eq] at hx
  obtain ⟨-, h1, h2, h3⟩ := hx
  have hb := tm_bound x
  have hnum : (Sym.t x).num = ((x.ctorIdx + 4 : Nat) : Int) := by simp [Sym.num]
  have hsh := List.all_eq_true.mp shifts_ok s' (by simp; omega)
  unfold shiftOK at hsh
  rw [if_neg (by omega)] at hsh
  have hsh := List.all_eq_true.mp hsh (x.ctorIdx + 4) (by simp; omega)
  rw [hnum] at h1 h2 h3
  simp only at hsh
  rw [if_neg (by simp; omega)] at hsh
  simp only [h3, beq_self_eq_true, if_true, Bool.and_eq_true, decide_eq_true_eq, List.contains_iff_mem] at hsh
  have hent : e = ⟨(s' : Int), e.val⟩ := by rw [← hs]
  rw [hent] at h
  have hok := StackOK.cons (actP (pactP s' + ((x.ctorIdx + 4 : Nat) : Int)).toNat).toNat s' e.val [] below (.t x) xs vs h (by omega) hsh.2.2
    (by rw [h3, hnum])
  obtain ⟨ws, hws⟩ := viable hok
  refine ⟨ws, fun ts hts => ?_⟩
  have := hws (ts ++ [x]) (by
    simp only [List.reverse_cons]
    exact hts.append (.tm x .nil))
  simpa using this

/-- **C118.** With `yyErrorVerbose` the message of a syntax error names the token found, and then either lists nothing or lists at
most four tokens, in the order of their declaration and without repetition, every one of which can come at this place. (Missing: not
every token that can come is listed, see `C118_counterexample`.) -/
theorem C118_names_partial (toks : List Tok) (hp : ∀ t ∈ toks, 0 < t.code) (d : Def) (s : Int) (c : Conf) (h : Reports toks d s c) :
    ∃ found xs k, errorMessage true s c.token = .ok (b!"syntax error: unexpected " ++ found ++ expecting xs) ∧
      FirstWrong toks k ∧ Describes found toks[k]? ∧ xs.length ≤ 4 ∧ xs.Sublist Tm.list ∧ ∀ x ∈ xs, CanFollow (toks.take k) x := by
  have hf := reports_found h
  obtain ⟨ys, vs, hst, done, he, ts, hc, hgen⟩ := hf.taken hp
  obtain ⟨e, below, hs1, hs2⟩ := hf.top
  have hst' := hst
  rw [hs1] at hst'
  obtain ⟨s', hs, hs3⟩ := hst'.top
  have hss : s = (s' : Int) := by rw [← hs2, hs]
  subst hss
  have hplace : ErrorAt toks d done.length := by
    refine ⟨s', c, h, ?_⟩
    have := congrArg List.length he
    simp only [List.length_append] at this
    omega
  have htake : toks.take done.length = done := by rw [he, List.append_assoc, List.take_left']; rfl
  refine ⟨tokname c.token, if (shiftable s').length ≤ 4 then shiftable s' else [], done.length, errorMessage_spec hs3 _,
    C117_first_wrong toks hp d _ hplace, ?_, ?_, ?_, ?_⟩
  · by_cases hch : c.char < 0
    · have hin := hf.last hp hch
      have hlook : c.look = [] := by simp [Conf.look, hch]
      rw [hlook, hin] at he
      simp only [List.append_nil] at he
      have hnone : toks[done.length]? = none := by rw [he]; simp
      rw [hnone]
      have hseen := hf.seen
      rw [yylex1_neg (by omega)] at hseen
      have := Except.ok.inj hseen
      show tokname c.token = b!"$end"
      rw [← this]
      decide +kernel
    · have hlook : c.look = [⟨c.char, c.lval⟩] := by simp [Conf.look, hch]
      rw [hlook] at he
      have hsome : toks[done.length]? = some ⟨c.char, c.lval⟩ := by rw [he]; simp
      rw [hsome]
      have hpos : 0 < c.char := hp ⟨c.char, c.lval⟩ (by rw [he]; simp)
      show (∃ x : Tm, x.code = c.char ∧ tokname c.token = x.name) ∨ _
      by_cases hx : ∃ x : Tm, x.code = c.char
      · obtain ⟨x, hx⟩ := hx
        refine .inl ⟨x, hx, ?_⟩
        have h1 := (yylex1_code x).1
        rw [hx, hf.seen] at h1
        rw [Except.ok.inj h1, tokname_tm]
      · right
        refine ⟨fun x hx' => hx ⟨x, hx'⟩, ?_⟩
        obtain ⟨t, h1, h2, h3, h4⟩ := yylex1_pos hpos
        rw [hf.seen] at h1
        cases h1
        have hlt : c.token < 4 := by
          apply Decidable.byContradiction
          intro hge
          obtain ⟨x, hx', -⟩ := h4 (by omega)
          exact hx ⟨x, hx'⟩
        rcases (show c.token = 2 ∨ c.token = 3 by omega) with h5 | h5
        · right; rw [h5]; decide +kernel
        · left; rw [h5]; decide +kernel
  · split
    · assumption
    · simp
  · split
    · exact List.filter_sublist
    · simp
  · intro x hx
    split at hx
    · obtain ⟨ws, hws⟩ := shiftable_follows hst hs1 hs2 hx
      exact ⟨ts, ws, by rw [htake]; exact hc, hws ts hgen⟩
    · cases hx

/-- **C118.** Without `yyErrorVerbose`, as in the package, the message says nothing about the place. -/
theorem C118_not_verbose (s token : Int) : errorMessage false s token = .ok b!"syntax error" := by
  simp [errorMessage]

/-! ## Cases -/

theorem code_inj {x y : Tm} (h : x.code = y.code) : x = y := by
  have h1 := (yylex1_code x).1
  have h2 := (yylex1_code y).1
  rw [h, h2] at h1
  have := Sym.num_inj (Except.ok.inj h1)
  cases this
  rfl

theorem codes_inj {xs ys : List Tm} (h : xs.map Tm.code = ys.map Tm.code) : xs = ys := by
  induction xs generalizing ys with
  | nil => cases ys <;> simp_all
  | cons x xs ih =>
    cases ys with
    | nil => simp at h
    | cons y ys =>
      simp only [List.map_cons, List.cons.injEq] at h
      rw [code_inj h.1, ih h.2]

/-- Looks for the error for at most `fuel` rounds. -/
def findReport : Nat → Conf → Option (Int × Conf)
  | 0, _ => none
  | fuel + 1, c =>
    match complains c with
    | .ok (some p) => some p
    | _ => match step false c with
      | .ok (.next c1) => findReport fuel c1
      | _ => none

theorem findReport_sound {fuel : Nat} {c c' : Conf} {s : Int} (h : findReport fuel c = some (s, c')) :
    ∃ c0, Rounds c c0 ∧ complains c0 = .ok (some (s, c')) := by
  induction fuel generalizing c with
  | zero => cases h
  | succ fuel ih =>
    unfold findReport at h
    split at h
    · rename_i p hc
      cases h
      exact ⟨c, .refl _, hc⟩
    · split at h
      · rename_i c1 hs
        obtain ⟨c0, h1, h2⟩ := ih h
        exact ⟨c0, .step hs h1, h2⟩
      · cases h

/-- What there is to see of a report. -/
def seen (p : Int × Conf) : M Bytes × Nat := (errorMessage true p.1 p.2.token, p.2.look.length + p.2.input.length)

theorem report_of {toks : List Tok} {d : Def} {fuel : Nat} {m : Bytes} {n : Nat} (h : (findReport fuel (start toks d)).map seen = some (.ok m, n)) :
    ∃ s c, Reports toks d s c ∧ errorMessage true s c.token = .ok m ∧ c.look.length + c.input.length = n := by
  cases hf : findReport fuel (start toks d) with
  | none => rw [hf] at h; cases h
  | some p =>
    rw [hf] at h
    obtain ⟨s, c⟩ := p
    simp only [seen, Option.map_some, Option.some.injEq, _root_.Prod.mk.injEq] at h
    exact ⟨s, c, findReport_sound hf, h.1, h.2⟩

/-- A number where the end of line must be: the message names it. -/
example : ∃ s c, Reports [tk .LC_MONETARY_STR [], tk .EOL [], tk .INT_CURR_SYMBOL_STR b!"int_curr_symbol", tk .TWO_DOUBLE_QUOTE_STR [],
      tk .NUMBER b!"7", tk .EOL []] {} s c ∧ errorMessage true s c.token = .ok b!"syntax error: unexpected NUMBER, expecting EOL" ∧
      c.look.length + c.input.length = 2 :=
  report_of (fuel := 40) (by decide +kernel)

/-- The case for C117: the error is at the number, which has index 4. -/
example : ErrorAt [tk .LC_MONETARY_STR [], tk .EOL [], tk .INT_CURR_SYMBOL_STR b!"int_curr_symbol", tk .TWO_DOUBLE_QUOTE_STR [],
      tk .NUMBER b!"7", tk .EOL []] {} 4 := by
  obtain ⟨s, c, h1, h2, h3⟩ := report_of (toks := [tk .LC_MONETARY_STR [], tk .EOL [], tk .INT_CURR_SYMBOL_STR b!"int_curr_symbol",
    tk .TWO_DOUBLE_QUOTE_STR [], tk .NUMBER b!"7", tk .EOL []]) (d := {}) (fuel := 40)
    (m := b!"syntax error: unexpected NUMBER, expecting EOL") (n := 2) (by decide +kernel)
  exact ⟨s, c, h1, by rw [Nat.add_assoc, h3]; rfl⟩

/-- The tokens of `order_start forward` in a collation section, and then a character. -/
def forwardChar : List Tok :=
  [tk .LC_COLLATE_STR [], tk .EOL [], tk .ORDER_START_STR [], tk .FORWARD_STR [], tk .CHAR b!"x"]

/-- The tokens of a collation section whose order is `forward,position`. -/
def forwardPosition : List Tok :=
  [tk .LC_COLLATE_STR [], tk .EOL [], tk .ORDER_START_STR [], tk .FORWARD_STR [], tk .COMMA [], tk .POSITION_STR [], tk .EOL [],
   tk .CHARSYMBOL b!"<a>", tk .EOL [], tk .ORDER_END_STR [], tk .EOL [], tk .END_STR [], tk .LC_COLLATE_STR [], tk .EOL []]

/-- **C118, the part that is false.** After `order_start forward` the message lists the end of line and the semicolon, but not the
comma, which can come as well: the parser had already decided, before looking at the token, that the directive was over. -/
theorem C118_counterexample : ∃ s c, Reports forwardChar {} s c ∧
    errorMessage true s c.token = .ok (b!"syntax error: unexpected CHAR" ++ expecting [.EOL, .SEMI]) ∧
    FirstWrong forwardChar 4 ∧ CanFollow (forwardChar.take 4) .COMMA := by
  obtain ⟨s, c, h1, h2, h3⟩ := report_of (toks := forwardChar) (d := {}) (fuel := 40)
    (m := b!"syntax error: unexpected CHAR" ++ expecting [.EOL, .SEMI]) (n := 1) (by decide +kernel)
  refine ⟨s, c, h1, h2, C117_first_wrong _ (by decide +kernel) {} 4 ⟨s, c, h1, by rw [Nat.add_assoc, h3]; rfl⟩, ?_⟩
  obtain ⟨d', hd⟩ : ∃ d', parse false forwardPosition {} = .ok (0, d') := ⟨{}, by decide +kernel⟩
  obtain ⟨v, hv⟩ := (C57_exact false forwardPosition (by decide +kernel) {} d').mp hd
  obtain ⟨ts, e1, e2⟩ := hv.generates
  have e3 : ts = [.LC_COLLATE_STR, .EOL, .ORDER_START_STR, .FORWARD_STR, .COMMA, .POSITION_STR, .EOL, .CHARSYMBOL, .EOL, .ORDER_END_STR,
      .EOL, .END_STR, .LC_COLLATE_STR, .EOL] := by
    apply codes_inj
    rw [← e1]
    rfl
  subst e3
  exact ⟨[.LC_COLLATE_STR, .EOL, .ORDER_START_STR, .FORWARD_STR], _, rfl, e2⟩

end Locale
