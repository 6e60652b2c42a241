import Verif.Locale.Viable
import Verif.Locale.ParserMeaning

/-!
# Where the generated parser finds a syntax error (C117)
-/

namespace Locale
open Go

/-! ## The call of `yylex.Error` -/

/-- y.go:734-764 from label `yydefault`: the state and the variables if `yylex.Error` is called in this round. -/
def dfltComplains (c : Conf) (s : Int) : M (Option (Int × Conf)) := do
  let n ← at_ yyDef s
  if n = -2 then do
    let c ← lex c
    let r ← findExca s yyExca
    let n ← excaAct c.token r
    .ok (if n = 0 ∧ c.errflag = 0 then some (s, c) else none)
  else .ok (if n = 0 ∧ c.errflag = 0 then some (s, c) else none)

/-- y.go:710-764 from label `yynewstate`: the state and the variables if `yylex.Error` is called in this round. This is `step`
(Parser.lean) up to that call; `complains_spec` says so. -/
def complains (c : Conf) : M (Option (Int × Conf)) :=
  match c.stack with
  | [] => .error .index
  | e :: _ => do
    let n ← at_ yyPact e.state
    if n ≤ yyFlag then dfltComplains c e.state
    else do
      let c ← lex c
      let n := n + c.token
      if n < 0 ∨ n ≥ yyLast then dfltComplains c e.state
      else do
        let s ← at_ yyAct n
        let k ← at_ yyChk s
        if k = c.token then .ok none else dfltComplains c e.state

/-- Rounds of the parser that go on. -/
inductive Rounds : Conf → Conf → Prop
  | refl (c : Conf) : Rounds c c
  | step {c c1 c2 : Conf} (h : step false c = .ok (.next c1)) (h' : Rounds c1 c2) : Rounds c c2

theorem Rounds.trans {c c1 c2 : Conf} (h : Rounds c c1) (h' : Rounds c1 c2) : Rounds c c2 := by
  induction h with
  | refl c => exact h'
  | step h1 _ ih => exact .step h1 (ih h')

/-- `yylex.Error` is called while parsing, in state `s`, with the variables `c`. -/
def Reports (toks : List Tok) (d : Def) (s : Int) (c : Conf) : Prop := ∃ c0, Rounds (start toks d) c0 ∧ complains c0 = .ok (some (s, c))

/-- The syntax error is found when `k` tokens have been taken and the next one, or the end, has been looked at. -/
def ErrorAt (toks : List Tok) (d : Def) (k : Nat) : Prop :=
  ∃ s c, Reports toks d s c ∧ k + c.look.length + c.input.length = toks.length

/-! ## The call in the model of the whole -/

theorem dflt_complains (c : Conf) (s : Int) :
    (∀ s' c', dfltComplains c s = .ok (some (s', c')) →
      ∀ handler, dflt handler c s = if handler then recover c' c'.stack c'.above else .error .explicit) ∧
    (dfltComplains c s = .ok none → dflt true c s = dflt false c s) ∧
    (∀ e, dfltComplains c s = .error e → ∀ handler, dflt handler c s = .error e) := by
  unfold dfltComplains dflt
  cases hd : at_ yyDef s with
  | error e => simp [bind, Except.bind]
  | ok n =>
    simp only [bind, Except.bind]
    by_cases h2 : n = -2
    · simp only [if_pos h2]
      cases hl : lex c with
      | error e => simp
      | ok c1 =>
        simp only
        cases hf : findExca s yyExca with
        | error e => simp
        | ok r =>
          simp only
          cases he : excaAct c1.token r with
          | error e => simp
          | ok m =>
            simp only
            by_cases hm : m = 0
            · subst hm
              by_cases hz : c1.errflag = 0
              · simp [hz, act, onError]
              · simp [hz, act, onError]
            · simp [hm, act]
    · simp only [if_neg h2]
      by_cases hm : n = 0
      · subst hm
        by_cases hz : c.errflag = 0
        · simp [hz, act, onError]
        · simp [hz, act, onError]
      · simp [hm, act]

theorem lex_errflag {c c' : Conf} (h : lex c = .ok c') : c'.errflag = c.errflag ∧ c'.stack = c.stack ∧ c'.above = c.above ∧ c'.d = c.d ∧
    c'.input.length ≤ c.input.length := by
  unfold lex at h
  split at h
  · split at h
    · simp only [yylex1_neg (show (-1 : Int) ≤ 0 by omega), bind, Except.bind] at h
      cases h
      exact ⟨rfl, rfl, rfl, rfl, Nat.le_refl _⟩
    · rename_i tok rest hi
      obtain ⟨k, hk, -⟩ := yylex1_spec tok.code
      simp only [hk, bind, Except.bind] at h
      cases h
      exact ⟨rfl, rfl, rfl, rfl, by simp [hi]⟩
  · cases h
    exact ⟨rfl, rfl, rfl, rfl, Nat.le_refl _⟩

/-- What `complains` says: when `yylex.Error` is called, the parser panics or, with a handler, recovers; otherwise having a
handler makes no difference. -/
theorem complains_spec (c : Conf) :
    (∀ s c', complains c = .ok (some (s, c')) →
      ∀ handler, step handler c = if handler then recover c' c'.stack c'.above else .error .explicit) ∧
    (complains c = .ok none → step true c = step false c) ∧
    (∀ e, complains c = .error e → ∀ handler, step handler c = .error e) := by
  unfold complains step
  cases hs : c.stack with
  | nil => simp
  | cons e below =>
    simp only
    cases hp : at_ yyPact e.state with
    | error er => simp [bind, Except.bind]
    | ok n =>
      simp only [bind, Except.bind]
      by_cases hf : n ≤ yyFlag
      · simp only [if_pos hf]
        exact dflt_complains _ _
      · simp only [if_neg hf]
        cases hl : lex c with
        | error er => simp
        | ok c1 =>
          simp only
          by_cases hb : n + c1.token < 0 ∨ n + c1.token ≥ yyLast
          · simp only [if_pos hb]
            exact dflt_complains _ _
          · simp only [if_neg hb]
            cases ha : at_ yyAct (n + c1.token) with
            | error er => simp
            | ok x =>
              simp only
              cases hk : at_ yyChk x with
              | error er => simp
              | ok k =>
                simp only
                by_cases ht : k = c1.token
                · simp [ht]
                · simp only [if_neg ht]
                  exact dflt_complains _ _

/-! ## The invariant when an error is found -/

theorem good_rounds {toks : List Tok} {d0 : Def} {c c2 : Conf} (h : Good toks d0 c) (hr : Rounds c c2) : Good toks d0 c2 := by
  induction hr with
  | refl c => exact h
  | step h1 _ ih =>
    rcases step_spec (handler := false) h with ⟨c', e1, e2, -⟩ | ⟨d, e1, -⟩ | ⟨d, e1, -⟩ | e1
    · rw [h1] at e1
      cases e1
      exact ih e2
    · rw [h1] at e1; cases e1
    · rw [h1] at e1; cases e1
    · rw [h1] at e1; cases e1

/-- A state in which an error can be found has looked at the next token, unless it is state 1. -/
theorem error_states : ((List.range 316).all fun s => defP s != 0 || decide (-1000 < pactP s)) = true := by decide +kernel

/-- What is known when the error is found in state `s`. -/
structure Found (toks : List Tok) (d0 : Def) (s : Int) (c : Conf) : Prop where
  good : Good toks d0 c
  top : ∃ e below, c.stack = e :: below ∧ e.state = s
  seen : yylex1 c.char = .ok c.token
  last : (∀ t ∈ toks, 0 < t.code) → c.char < 0 → c.input = []

theorem complains_found {toks : List Tok} {d0 : Def} {c c' : Conf} {s : Int} (h : Good toks d0 c)
    (hc : complains c = .ok (some (s, c'))) : Found toks d0 s c' := by
  obtain ⟨xs, vs, done, h1, h2, h3⟩ := h.stack
  unfold complains at hc
  cases hst : c.stack with
  | nil => rw [hst] at h1; cases h1
  | cons e below =>
    rw [hst] at h1
    obtain ⟨s0, hs, hs3⟩ := h1.top
    rw [hst] at hc
    simp only [hs, at_pact hs3, bind, Except.bind] at hc
    have hes := List.all_eq_true.mp error_states s0 (by simp; omega)
    simp only [Bool.or_eq_true, bne_iff_ne, decide_eq_true_eq] at hes
    -- the case of `dfltComplains` when the token has been looked at
    have looked : ∀ c1, Good toks d0 c1 → c1.stack = c.stack → yylex1 c1.char = .ok c1.token →
        ((∀ t ∈ toks, 0 < t.code) → c1.char < 0 → c1.input = []) → dfltComplains c1 s0 = .ok (some (s, c')) → Found toks d0 s c' := by
      intro c1 g1 e1 e2 e3 hd
      unfold dfltComplains at hd
      simp only [at_def hs3, bind, Except.bind] at hd
      split at hd
      · obtain ⟨c2, hl, hg, l1, l2, l3, l4, l5, l6, l7⟩ := lex_spec g1
        simp only [hl] at hd
        cases hf : findExca s0 yyExca with
        | error er => simp [hf] at hd
        | ok r =>
          simp only [hf] at hd
          cases he : excaAct c2.token r with
          | error er => simp [he] at hd
          | ok m =>
            simp only [he] at hd
            split at hd
            · cases hd
              exact ⟨hg, ⟨e, below, l1.trans (e1.trans hst), hs⟩, l5, l7⟩
            · cases hd
      · split at hd
        · cases hd
          exact ⟨g1, ⟨e, below, e1.trans hst, hs⟩, e2, e3⟩
        · cases hd
    by_cases hf : pactP s0 ≤ yyFlag
    · rw [if_pos hf] at hc
      unfold dfltComplains at hc
      simp only [at_def hs3, bind, Except.bind] at hc
      split at hc
      · obtain ⟨c2, hl, hg, l1, l2, l3, l4, l5, l6, l7⟩ := lex_spec h
        simp only [hl] at hc
        cases hx : findExca s0 yyExca with
        | error er => simp [hx] at hc
        | ok r =>
          simp only [hx] at hc
          cases he : excaAct c2.token r with
          | error er => simp [he] at hc
          | ok m =>
            simp only [he] at hc
            split at hc
            · cases hc
              exact ⟨hg, ⟨e, below, l1.trans hst, hs⟩, l5, l7⟩
            · cases hc
      · split at hc
        · rename_i hz
          simp only [yyFlag] at hf
          rcases hes with hes | hes
          · exact absurd hz.1 hes
          · omega
        · cases hc
    · rw [if_neg hf] at hc
      obtain ⟨c1, hl, hg, l1, l2, l3, l4, l5, l6, l7⟩ := lex_spec h
      simp only [hl] at hc
      by_cases hb : pactP s0 + c1.token < 0 ∨ pactP s0 + c1.token ≥ yyLast
      · rw [if_pos hb] at hc
        exact looked c1 hg l1 l5 l7 hc
      · rw [if_neg hb] at hc
        cases ha : at_ yyAct (pactP s0 + c1.token) with
        | error er => simp [ha] at hc
        | ok x =>
          simp only [ha] at hc
          cases hk : at_ yyChk x with
          | error er => simp [hk] at hc
          | ok k =>
            simp only [hk] at hc
            split at hc
            · cases hc
            · exact looked c1 hg l1 l5 l7 hc

theorem reports_found {toks : List Tok} {d : Def} {s : Int} {c : Conf} (h : Reports toks d s c) : Found toks d s c := by
  obtain ⟨c0, h1, h2⟩ := h
  exact complains_found (good_rounds (start_good toks d) h1) h2

/-- The tokens taken when the error is found. -/
theorem Found.taken {toks : List Tok} {d : Def} {s : Int} {c : Conf} (h : Found toks d s c) (hp : ∀ t ∈ toks, 0 < t.code) :
    ∃ xs vs, StackOK c.stack xs vs ∧ ∃ done : List Tok, toks = done ++ c.look ++ c.input ∧
      ∃ ts : List Tm, done.map Tok.code = ts.map Tm.code ∧ Generates xs.reverse ts := by
  obtain ⟨xs, vs, done, h1, h2, h3⟩ := h.good.stack
  obtain ⟨ts, e, g⟩ := h2.generates
  exact ⟨xs, vs, h1, done, h3 hp, ts, e, g⟩

/-! ## Any sequence of terminals of the grammar is accepted with suitable texts -/

/-- A text for a terminal: every number is 0. -/
def textOf (x : Tm) : Bytes := if x = .NUMBER then b!"0" else []

/-- Tokens for the terminals. -/
def toksOf (ts : List Tm) : List Tok := ts.map fun x => ⟨x.code, textOf x⟩

/-- The texts of symbols for which they matter. -/
def NiceText : Sym → Bytes → Prop
  | .t .NUMBER, v => v = b!"0"
  | .n .mon_group_list, v => ∃ n, v = semis (List.replicate (n + 1) b!"0")
  | _, _ => True

/-- The same for all of them. -/
def Nice : List Sym → List Bytes → Prop
  | [], [] => True
  | s :: ss, v :: vs => NiceText s v ∧ Nice ss vs
  | _, _ => False

theorem Nice.length {ss : List Sym} {vs : List Bytes} (h : Nice ss vs) : ss.length = vs.length := by
  induction ss generalizing vs with
  | nil => cases vs <;> simp_all [Nice]
  | cons s ss ih =>
    cases vs with
    | nil => simp [Nice] at h
    | cons v vs => simp [ih h.2]

theorem zeros_atoi (n : Nat) : (split (semis (List.replicate (n + 1) b!"0")) b!";").map atoi? = (List.replicate (n + 1) (0 : Int)).map some := by
  have h0 : atoi? b!"0" = some 0 := by decide +kernel
  rw [split_semis (by simp) (by
    intro x hx
    rw [List.eq_of_mem_replicate hx]
    decide), List.map_replicate, List.map_replicate, h0]

theorem zeros_snoc (n : Nat) : semis (List.replicate (n + 1) b!"0") ++ b!";" ++ b!"0" = semis (List.replicate (n + 1 + 1) b!"0") := by
  rw [List.replicate_succ' (n := n + 1), semis_snoc (by simp)]

open Tm Nt Sym in
theorem means_nice {p : Prod} (hp : p ∈ grammar) {ws : List Bytes} (h : Nice p.rhs ws) (d : Def) :
    ∃ v d', Means p.action ws d v d' ∧ NiceText (.n p.lhs) v := by
  by_cases hg : p.lhs = mon_group_list
  · have hm : p ∈ grammar.filter (fun p => p.lhs == mon_group_list) := by simp [hp, hg]
    rw [of_mon_group_list] at hm
    simp only [List.mem_cons, List.not_mem_nil, or_false] at hm
    rcases hm with rfl | rfl
    · match ws, h with
      | [v], h =>
        have hv : v = b!"0" := h.1
        subst hv
        exact ⟨b!"0", d, .first _ _ _, 0, rfl⟩
    · match ws, h with
      | [a, b, c], h =>
        obtain ⟨⟨n, rfl⟩, -, hc, -⟩ := h
        have hc : c = b!"0" := hc
        subst hc
        exact ⟨_, d, .semicolon _ _ _ _, n + 1, zeros_snoc n⟩
  · have triv : ∀ v, NiceText (.n p.lhs) v := by
      intro v
      unfold NiceText
      split
      · rename_i heq
        cases heq
      · rename_i heq
        exact absurd (Sym.n.inj heq) hg
      · trivial
    suffices hs : ∃ v d', Means p.action ws d v d' by
      obtain ⟨v, d', hm⟩ := hs
      exact ⟨v, d', hm, triv v⟩
    have hl := h.length
    by_cases h1 : p = ⟨char_list, [n char_list, n char_symbol]⟩
    · subst h1
      match ws, hl with
      | [a, b], _ => exact ⟨_, _, .concat _ _ _⟩
    by_cases h2 : p = ⟨monetary_keyword, [n mon_keyword_string, n mon_string, t EOL]⟩
    · subst h2
      match ws, hl with
      | [a, b, c], _ =>
        by_cases hk : a = b!"int_curr_symbol"
        · subst hk
          exact ⟨_, _, .currency _ _ _⟩
        · exact ⟨_, _, .otherString _ _ _ _ hk⟩
    by_cases h3 : p = ⟨monetary_keyword, [n mon_keyword_char, t NUMBER, t EOL]⟩
    · subst h3
      match ws, h with
      | [a, b, c], h =>
        have hb : b = b!"0" := h.2.1
        subst hb
        exact ⟨_, _, .number _ _ _ _ 0 (by decide +kernel)⟩
    by_cases h4 : p = ⟨monetary_keyword, [n mon_keyword_char, t NEGATIVE_ONE_STR, t EOL]⟩
    · subst h4
      match ws, hl with
      | [a, b, c], _ => exact ⟨_, _, .minusOne _ _ _ _⟩
    by_cases h5 : p = ⟨monetary_keyword, [n mon_keyword_grouping, n mon_group_list, t EOL]⟩
    · subst h5
      match ws, h with
      | [a, b, c], h =>
        obtain ⟨k, rfl⟩ := h.2.1
        exact ⟨_, _, .grouping _ _ _ _ _ (zeros_atoi k)⟩
    by_cases h6 : p = ⟨mon_string, [t DQUOTE, n char_list, t DQUOTE]⟩
    · subst h6
      match ws, hl with
      | [a, b, c], _ => exact ⟨_, _, .unquote _ _ _ _⟩
    by_cases h7 : p = ⟨mon_group_list, [n mon_group_list, t SEMI, t NUMBER]⟩
    · subst h7
      exact absurd rfl hg
    have ha : p.action = .first := by
      unfold Prod.action
      rw [if_neg h1, if_neg h2, if_neg h3, if_neg h4, if_neg h5, if_neg h6, if_neg h7]
    rw [ha]
    cases ws with
    | nil => exact ⟨[], d, .empty _ _⟩
    | cons v vs => exact ⟨v, d, .first _ _ _⟩

theorem Generates.derives {ss : List Sym} {ts : List Tm} (h : Generates ss ts) (d : Def) :
    ∃ vs d', Derives ss (toksOf ts) d vs d' ∧ Nice ss vs := by
  induction h generalizing d with
  | nil => exact ⟨[], d, .nil d, trivial⟩
  | tm x h ih =>
    obtain ⟨vs, d', h1, h2⟩ := ih d
    refine ⟨textOf x :: vs, d', .tm x _ _ _ _ _ _ h1, ?_, h2⟩
    cases x <;> first | rfl | trivial
  | nt hp h h' ih ih' =>
    obtain ⟨ws, d1, h1, h2⟩ := ih d
    obtain ⟨v, d2, hm, hv⟩ := means_nice hp h2 d1
    obtain ⟨vs, d3, h3, h4⟩ := ih' d2
    refine ⟨v :: vs, d3, ?_, hv, h4⟩
    have := Derives.nt _ hp _ _ d d1 d2 d3 ws v _ vs h1 hm h3
    simpa [toksOf] using this

/-- With the texts of `toksOf` a sequence of terminals of the grammar is accepted. -/
theorem grammatical_accepted {ts : List Tm} (h : Grammatical ts) (handler : Bool) (d : Def) : ∃ d', parse handler (toksOf ts) d = .ok (0, d') := by
  obtain ⟨vs, d', h1, h2⟩ := h.derives d
  match vs, h2 with
  | [v], _ => exact ⟨d', C57_complete handler _ d d' ⟨v, h1⟩⟩

/-! ## Texts do not matter for what the parser does next -/

/-- The two configurations differ in texts, and in what is after the tokens considered (`rest` and `rest2`). -/
structure Twin (rest rest2 : List Tok) (c c2 : Conf) : Prop where
  states : c.stack.map Entry.state = c2.stack.map Entry.state
  char : c.char = c2.char
  token : c.token = c2.token
  errflag : c.errflag = 0
  errflag2 : c2.errflag = 0
  input : ∃ a a2 : List Tok, c.input = a ++ rest ∧ c2.input = a2 ++ rest2 ∧ a.map Tok.code = a2.map Tok.code

/-- How many tokens have not been taken. -/
def Conf.left (c : Conf) : Nat := c.look.length + c.input.length

theorem left_le {c c' : Conf} (h1 : c'.char = c.char) (h2 : c'.input = c.input) : c'.left = c.left := by
  simp only [Conf.left, Conf.look, h1, h2]
  split <;> simp

theorem lex_left {c c1 : Conf} (hl : lex c = .ok c1) : c1.left ≤ c.left := by
  unfold lex at hl
  split at hl
  · rename_i hneg
    split at hl
    · rename_i hi
      simp only [yylex1_neg (show (-1 : Int) ≤ 0 by omega), bind, Except.bind] at hl
      cases hl
      simp [Conf.left, Conf.look, hi]
    · rename_i tok r hi
      obtain ⟨k, hk, -⟩ := yylex1_spec tok.code
      simp only [hk, bind, Except.bind] at hl
      cases hl
      simp only [Conf.left, Conf.look, hi, hneg, if_true, List.length_nil, List.length_cons]
      split <;> simp <;> omega
  · cases hl
    exact Nat.le_refl _

theorem twin_lex {rest rest2 : List Tok} {c c2 c1 : Conf} (h : Twin rest rest2 c c2) (hl : lex c = .ok c1)
    (hlen : rest.length ≤ c1.input.length) (hleft : rest2 = [] ∨ 0 < c1.left) : ∃ c21, lex c2 = .ok c21 ∧ Twin rest rest2 c1 c21 := by
  obtain ⟨h1, h2, h3, h4, h5, a, a2, h6, h7, h8⟩ := h
  unfold lex at hl
  split at hl
  · rename_i hneg
    split at hl
    · rename_i hi
      rw [h6] at hi
      have ha : a = [] := (List.append_eq_nil_iff.mp hi).1
      have hre : rest = [] := (List.append_eq_nil_iff.mp hi).2
      subst ha
      have ha2 : a2 = [] := by simpa using h8.symm
      subst ha2
      simp only [yylex1_neg (show (-1 : Int) ≤ 0 by omega), bind, Except.bind] at hl
      cases hl
      have hre2 : rest2 = [] := by
        rcases hleft with hl2 | hl2
        · exact hl2
        · simp [Conf.left, Conf.look, h6, hre] at hl2
      refine ⟨{ c2 with char := -1, token := 1 }, ?_, h1, rfl, rfl, h4, h5, [], [], by simp [h6], by simp [h7], rfl⟩
      unfold lex
      rw [if_pos (by omega)]
      simp only [h7, hre2, List.append_nil, yylex1_neg (show (-1 : Int) ≤ 0 by omega), bind, Except.bind]
    · rename_i tok r hi
      obtain ⟨k, hk, -⟩ := yylex1_spec tok.code
      simp only [hk, bind, Except.bind] at hl
      cases hl
      simp only at hlen
      cases a with
      | nil =>
        simp only [List.nil_append] at h6
        rw [h6] at hi
        rw [hi] at hlen
        simp only [List.length_cons] at hlen
        omega
      | cons t a =>
        cases a2 with
        | nil => simp at h8
        | cons t2 a2 =>
          simp only [List.cons_append] at h6 h7
          rw [h6] at hi
          cases hi
          simp only [List.map_cons, List.cons.injEq] at h8
          refine ⟨{ c2 with char := t2.code, token := k, lval := t2.val, input := a2 ++ rest2 }, ?_, h1, h8.1, rfl, h4, h5, a, a2, rfl, rfl, h8.2⟩
          unfold lex
          rw [if_pos (by omega)]
          simp only [h7, ← h8.1, hk, bind, Except.bind]
  · rename_i hnn
    cases hl
    refine ⟨c2, ?_, h1, h2, h3, h4, h5, a, a2, h6, h7, h8⟩
    unfold lex
    rw [if_neg (by omega)]

theorem map_drop_cons {l l2 : List Entry} (h : l.map Entry.state = l2.map Entry.state) {n : Nat} {e : Entry} {below : List Entry}
    (hd : l.drop n = e :: below) :
    ∃ e2 below2, l2.drop n = e2 :: below2 ∧ e.state = e2.state ∧ below.map Entry.state = below2.map Entry.state := by
  have := congrArg (List.drop n) h
  rw [← List.map_drop, ← List.map_drop, hd] at this
  cases hx : l2.drop n with
  | nil => rw [hx] at this; simp at this
  | cons e2 b2 =>
    rw [hx] at this
    simp only [List.map_cons, List.cons.injEq] at this
    exact ⟨e2, b2, rfl, this.1, this.2⟩

theorem twin_reduce {rest rest2 : List Tok} {c c2 c1 : Conf} (h : Twin rest rest2 c c2) {n : Int} (hs : reduce c n = .ok (.next c1)) :
    (∃ c21, reduce c2 n = .ok (.next c21) ∧ Twin rest rest2 c1 c21) ∨ ∃ e, reduce c2 n = .error e := by
  unfold reduce at hs ⊢
  cases hk : at_ yyR2 n with
  | error e => simp [hk, bind, Except.bind] at hs
  | ok k =>
    simp only [hk, bind, Except.bind] at hs ⊢
    cases hd : c.stack.drop k.toNat with
    | nil => simp [hd] at hs
    | cons e below =>
      obtain ⟨e2, below2, f1, f2, f3⟩ := map_drop_cons h.states hd
      simp only [hd] at hs
      simp only [f1]
      cases hn : at_ yyR1 n with
      | error er => simp [hn] at hs
      | ok nt =>
        simp only [hn, ← f2] at hs ⊢
        cases hg : goto_ nt e.state with
        | error er => simp [hg] at hs
        | ok s =>
          simp only [hg] at hs ⊢
          split at hs
          · cases hs
          · rename_i r hr
            cases hs
            cases ha : action n (c2.stack.take k.toNat).reverse (((c2.stack.take k.toNat).reverse.map Entry.val ++ c2.above).headD []) c2.d with
            | error er => exact .inr ⟨er, rfl⟩
            | ok r2 =>
              refine .inl ⟨_, rfl, ?_, h.char, h.token, h.errflag, h.errflag2, h.input⟩
              simp [push, f2, f3]

theorem reduce_input {c c1 : Conf} {n : Int} (hs : reduce c n = .ok (.next c1)) : c1.char = c.char ∧ c1.input = c.input := by
  unfold reduce at hs
  cases hk : at_ yyR2 n with
  | error e => simp [hk, bind, Except.bind] at hs
  | ok k =>
    simp only [hk, bind, Except.bind] at hs
    cases hd : c.stack.drop k.toNat with
    | nil => simp [hd] at hs
    | cons e below =>
      simp only [hd] at hs
      cases hn : at_ yyR1 n with
      | error er => simp [hn] at hs
      | ok nt =>
        simp only [hn] at hs
        cases hg : goto_ nt e.state with
        | error er => simp [hg] at hs
        | ok s =>
          simp only [hg] at hs
          split at hs
          · cases hs
          · cases hs
            exact ⟨rfl, rfl⟩

theorem twin_dflt {rest rest2 : List Tok} {c c2 c1 : Conf} (h : Twin rest rest2 c c2) {s : Int}
    (hs : dflt false c s = .ok (.next c1)) (hlen : rest.length ≤ c1.input.length) (hleft : rest2 = [] ∨ 0 < c1.left) :
    (∃ c21, dflt false c2 s = .ok (.next c21) ∧ Twin rest rest2 c1 c21) ∨ ∃ e, dflt false c2 s = .error e := by
  unfold dflt at hs ⊢
  cases hd : at_ yyDef s with
  | error e => simp [hd, bind, Except.bind] at hs
  | ok n =>
    simp only [hd, bind, Except.bind] at hs ⊢
    by_cases h2 : n = -2
    · simp only [if_pos h2] at hs ⊢
      cases hl : lex c with
      | error e => simp [hl] at hs
      | ok c3 =>
        simp only [hl] at hs
        cases hf : findExca s yyExca with
        | error e => simp [hf] at hs
        | ok r =>
          simp only [hf] at hs
          cases he : excaAct c3.token r with
          | error e => simp [he] at hs
          | ok m =>
            simp only [he] at hs
            by_cases hm : m < 0
            · simp [if_pos hm] at hs
            · simp only [if_neg hm, act] at hs
              by_cases hz : m = 0
              · simp [if_pos hz, onError, (lex_errflag hl).1, h.errflag] at hs
              · simp only [if_neg hz] at hs
                have hi := reduce_input hs
                obtain ⟨c23, g1, g2⟩ := twin_lex h hl (by rw [← hi.2]; exact hlen) (by rw [← left_le hi.1 hi.2]; exact hleft)
                simp only [g1, ← g2.token, he, if_neg hm, act, if_neg hz]
                exact twin_reduce g2 hs
    · simp only [if_neg h2, act] at hs ⊢
      by_cases hz : n = 0
      · simp [if_pos hz, onError, h.errflag] at hs
      · simp only [if_neg hz] at hs ⊢
        exact twin_reduce h hs

theorem dflt_left {c c1 : Conf} {s : Int} (he : c.errflag = 0) (hs : dflt false c s = .ok (.next c1)) :
    c1.left ≤ c.left ∧ c1.input.length ≤ c.input.length := by
  unfold dflt at hs
  cases hd : at_ yyDef s with
  | error e => simp [hd, bind, Except.bind] at hs
  | ok n =>
    simp only [hd, bind, Except.bind] at hs
    by_cases h2 : n = -2
    · simp only [if_pos h2] at hs
      cases hl : lex c with
      | error e => simp [hl] at hs
      | ok c3 =>
        simp only [hl] at hs
        cases hf : findExca s yyExca with
        | error e => simp [hf] at hs
        | ok r =>
          simp only [hf] at hs
          cases hx : excaAct c3.token r with
          | error e => simp [hx] at hs
          | ok m =>
            simp only [hx] at hs
            by_cases hm : m < 0
            · simp [if_pos hm] at hs
            · simp only [if_neg hm, act] at hs
              by_cases hz : m = 0
              · simp [if_pos hz, onError, (lex_errflag hl).1, he] at hs
              · simp only [if_neg hz] at hs
                have hi := reduce_input hs
                rw [left_le hi.1 hi.2, hi.2]
                exact ⟨lex_left hl, (lex_errflag hl).2.2.2.2⟩
    · simp only [if_neg h2, act] at hs
      by_cases hz : n = 0
      · simp [if_pos hz, onError, he] at hs
      · simp only [if_neg hz] at hs
        have hi := reduce_input hs
        rw [left_le hi.1 hi.2, hi.2]
        exact ⟨Nat.le_refl _, Nat.le_refl _⟩

theorem step_left {c c1 : Conf} (he : c.errflag = 0) (hs : step false c = .ok (.next c1)) :
    c1.left ≤ c.left ∧ c1.input.length ≤ c.input.length := by
  unfold step at hs
  cases hst : c.stack with
  | nil => simp [hst] at hs
  | cons e below =>
    simp only [hst] at hs
    cases hp : at_ yyPact e.state with
    | error er => simp [hp, bind, Except.bind] at hs
    | ok n =>
      simp only [hp, bind, Except.bind] at hs
      by_cases hf : n ≤ yyFlag
      · simp only [if_pos hf] at hs
        exact dflt_left he hs
      · simp only [if_neg hf] at hs
        cases hl : lex c with
        | error er => simp [hl] at hs
        | ok c3 =>
          have g1 := lex_left hl
          have g2 := lex_errflag hl
          simp only [hl] at hs
          by_cases hb : n + c3.token < 0 ∨ n + c3.token ≥ yyLast
          · simp only [if_pos hb] at hs
            have := dflt_left (g2.1.trans he) hs
            omega
          · simp only [if_neg hb] at hs
            cases ha : at_ yyAct (n + c3.token) with
            | error er => simp [ha] at hs
            | ok x =>
              simp only [ha] at hs
              cases hk : at_ yyChk x with
              | error er => simp [hk] at hs
              | ok k =>
                simp only [hk] at hs
                by_cases ht : k = c3.token
                · simp only [if_pos ht] at hs
                  cases hs
                  refine ⟨?_, g2.2.2.2.2⟩
                  simp only [Conf.left, Conf.look, push] at g1 ⊢
                  simp
                  omega
                · simp only [if_neg ht] at hs
                  have := dflt_left (g2.1.trans he) hs
                  omega

theorem twin_step {rest rest2 : List Tok} {c c2 c1 : Conf} (h : Twin rest rest2 c c2)
    (hs : step false c = .ok (.next c1)) (hlen : rest.length ≤ c1.input.length) (hleft : rest2 = [] ∨ 0 < c1.left) :
    (∃ c21, step false c2 = .ok (.next c21) ∧ Twin rest rest2 c1 c21) ∨ ∃ e, step false c2 = .error e := by
  unfold step at hs ⊢
  cases hst : c.stack with
  | nil => simp [hst] at hs
  | cons e below =>
    obtain ⟨e2, below2, f1, f2, f3⟩ := map_drop_cons (n := 0) h.states hst
    simp only [List.drop_zero] at f1
    simp only [hst] at hs
    simp only [f1, ← f2]
    cases hp : at_ yyPact e.state with
    | error er => simp [hp, bind, Except.bind] at hs
    | ok n =>
      simp only [hp, bind, Except.bind] at hs ⊢
      by_cases hf : n ≤ yyFlag
      · simp only [if_pos hf] at hs ⊢
        exact twin_dflt h hs hlen hleft
      · simp only [if_neg hf] at hs ⊢
        cases hl : lex c with
        | error er => simp [hl] at hs
        | ok c3 =>
          have g1 := lex_left hl
          have g2 := lex_errflag hl
          simp only [hl] at hs
          have hmore : rest.length ≤ c3.input.length ∧ (rest2 = [] ∨ 0 < c3.left) := by
            by_cases hb : n + c3.token < 0 ∨ n + c3.token ≥ yyLast
            · simp only [if_pos hb] at hs
              have := dflt_left (g2.1.trans h.errflag) hs
              refine ⟨by omega, ?_⟩
              rcases hleft with h0 | h0
              · exact .inl h0
              · right; omega
            · simp only [if_neg hb] at hs
              cases ha : at_ yyAct (n + c3.token) with
              | error er => simp [ha] at hs
              | ok x =>
                simp only [ha] at hs
                cases hk : at_ yyChk x with
                | error er => simp [hk] at hs
                | ok k =>
                  simp only [hk] at hs
                  by_cases ht : k = c3.token
                  · simp only [if_pos ht] at hs
                    cases hs
                    refine ⟨hlen, ?_⟩
                    rcases hleft with h0 | h0
                    · exact .inl h0
                    · right
                      simp only [Conf.left, Conf.look, push] at h0 ⊢
                      simp at h0
                      omega
                  · simp only [if_neg ht] at hs
                    have := dflt_left (g2.1.trans h.errflag) hs
                    refine ⟨by omega, ?_⟩
                    rcases hleft with h0 | h0
                    · exact .inl h0
                    · right; omega
          obtain ⟨c23, k1, k2⟩ := twin_lex h hl hmore.1 hmore.2
          simp only [k1, ← k2.token]
          by_cases hb : n + c3.token < 0 ∨ n + c3.token ≥ yyLast
          · simp only [if_pos hb] at hs ⊢
            exact twin_dflt k2 hs hlen hleft
          · simp only [if_neg hb] at hs ⊢
            cases ha : at_ yyAct (n + c3.token) with
            | error er => simp [ha] at hs
            | ok x =>
              simp only [ha] at hs ⊢
              cases hk : at_ yyChk x with
              | error er => simp [hk] at hs
              | ok k =>
                simp only [hk] at hs ⊢
                by_cases ht : k = c3.token
                · simp only [if_pos ht] at hs ⊢
                  cases hs
                  refine .inl ⟨_, rfl, ?_, rfl, rfl, ?_, ?_, k2.input⟩
                  · simp [push, k2.states]
                  · simp [push, k2.errflag]
                  · simp [push, k2.errflag2]
                · simp only [if_neg ht] at hs ⊢
                  exact twin_dflt k2 hs hlen hleft

theorem twin_dfltComplains {rest rest2 : List Tok} {c c2 c1 : Conf} (h : Twin rest rest2 c c2) {s s1 : Int}
    (hs : dfltComplains c s = .ok (some (s1, c1))) (hlen : rest.length ≤ c1.input.length) (hleft : rest2 = [] ∨ 0 < c1.left) :
    (∃ c21, dfltComplains c2 s = .ok (some (s1, c21))) ∧ c1.left ≤ c.left ∧ c1.input.length ≤ c.input.length := by
  unfold dfltComplains at hs ⊢
  cases hd : at_ yyDef s with
  | error e => simp [hd, bind, Except.bind] at hs
  | ok n =>
    simp only [hd, bind, Except.bind] at hs ⊢
    by_cases h2 : n = -2
    · simp only [if_pos h2] at hs ⊢
      cases hl : lex c with
      | error e => simp [hl] at hs
      | ok c3 =>
        simp only [hl] at hs
        cases hf : findExca s yyExca with
        | error e => simp [hf] at hs
        | ok r =>
          simp only [hf] at hs
          cases hx : excaAct c3.token r with
          | error e => simp [hx] at hs
          | ok m =>
            simp only [hx] at hs
            split at hs
            · rename_i hz
              cases hs
              obtain ⟨c23, g1, g2⟩ := twin_lex h hl hlen hleft
              refine ⟨⟨c23, ?_⟩, lex_left hl, (lex_errflag hl).2.2.2.2⟩
              simp only [g1, ← g2.token, hx]
              rw [if_pos ⟨hz.1, g2.errflag2⟩]
            · cases hs
    · simp only [if_neg h2] at hs ⊢
      split at hs
      · rename_i hz
        cases hs
        refine ⟨⟨c2, ?_⟩, Nat.le_refl _, Nat.le_refl _⟩
        rw [if_pos ⟨hz.1, h.errflag2⟩]
      · cases hs

theorem twin_complains {rest rest2 : List Tok} {c c2 c1 : Conf} (h : Twin rest rest2 c c2) {s1 : Int}
    (hs : complains c = .ok (some (s1, c1))) (hlen : rest.length ≤ c1.input.length) (hleft : rest2 = [] ∨ 0 < c1.left) :
    (∃ c21, complains c2 = .ok (some (s1, c21))) ∧ c1.left ≤ c.left ∧ c1.input.length ≤ c.input.length := by
  unfold complains at hs ⊢
  cases hst : c.stack with
  | nil => simp [hst] at hs
  | cons e below =>
    obtain ⟨e2, below2, f1, f2, f3⟩ := map_drop_cons (n := 0) h.states hst
    simp only [List.drop_zero] at f1
    simp only [hst] at hs
    simp only [f1, ← f2]
    cases hp : at_ yyPact e.state with
    | error er => simp [hp, bind, Except.bind] at hs
    | ok n =>
      simp only [hp, bind, Except.bind] at hs ⊢
      by_cases hf : n ≤ yyFlag
      · simp only [if_pos hf] at hs ⊢
        exact twin_dfltComplains h hs hlen hleft
      · simp only [if_neg hf] at hs ⊢
        cases hl : lex c with
        | error er => simp [hl] at hs
        | ok c3 =>
          have g1 := lex_left hl
          have g2 := lex_errflag hl
          simp only [hl] at hs
          -- the variables do not change after the token has been looked at
          have hsame : ∀ s, dfltComplains c3 s = .ok (some (s1, c1)) → c1.left ≤ c3.left ∧ c1.input.length ≤ c3.input.length := by
            intro s hd
            unfold dfltComplains at hd
            cases hx : at_ yyDef s with
            | error e => simp [hx, bind, Except.bind] at hd
            | ok m =>
              simp only [hx, bind, Except.bind] at hd
              by_cases h2 : m = -2
              · simp only [if_pos h2] at hd
                cases hl3 : lex c3 with
                | error e => simp [hl3] at hd
                | ok c4 =>
                  simp only [hl3] at hd
                  cases hf : findExca s yyExca with
                  | error e => simp [hf] at hd
                  | ok r =>
                    simp only [hf] at hd
                    cases hy : excaAct c4.token r with
                    | error e => simp [hy] at hd
                    | ok m =>
                      simp only [hy] at hd
                      split at hd
                      · cases hd
                        exact ⟨lex_left hl3, (lex_errflag hl3).2.2.2.2⟩
                      · cases hd
              · simp only [if_neg h2] at hd
                split at hd
                · cases hd
                  exact ⟨Nat.le_refl _, Nat.le_refl _⟩
                · cases hd
          have key : ∀ s, dfltComplains c3 s = .ok (some (s1, c1)) →
              ∃ c23, lex c2 = .ok c23 ∧ Twin rest rest2 c3 c23 ∧ (∃ c21, dfltComplains c23 s = .ok (some (s1, c21))) ∧
                c1.left ≤ c.left ∧ c1.input.length ≤ c.input.length := by
            intro s hd
            have hm := hsame s hd
            obtain ⟨c23, k1, k2⟩ := twin_lex h hl (by omega) (by
              rcases hleft with h0 | h0
              · exact .inl h0
              · right; omega)
            obtain ⟨w1, w2, w3⟩ := twin_dfltComplains k2 hd hlen hleft
            exact ⟨c23, k1, k2, w1, by omega, by omega⟩
          by_cases hb : n + c3.token < 0 ∨ n + c3.token ≥ yyLast
          · simp only [if_pos hb] at hs
            obtain ⟨c23, k1, k2, k3, k4⟩ := key _ hs
            simp only [k1, ← k2.token, if_pos hb]
            exact ⟨k3, k4⟩
          · simp only [if_neg hb] at hs
            cases ha : at_ yyAct (n + c3.token) with
            | error er => simp [ha] at hs
            | ok x =>
              simp only [ha] at hs
              cases hk : at_ yyChk x with
              | error er => simp [hk] at hs
              | ok k =>
                simp only [hk] at hs
                by_cases ht : k = c3.token
                · simp [if_pos ht] at hs
                · simp only [if_neg ht] at hs
                  obtain ⟨c23, k1, k2, k3, k4⟩ := key _ hs
                  simp only [k1, ← k2.token, if_neg hb, ha, hk, if_neg ht]
                  exact ⟨k3, k4⟩

theorem rounds_left {c c' : Conf} (hr : Rounds c c') {toks : List Tok} {d0 : Def} (hg : Good toks d0 c) :
    c'.left ≤ c.left ∧ c'.input.length ≤ c.input.length := by
  induction hr with
  | refl c => exact ⟨Nat.le_refl _, Nat.le_refl _⟩
  | step h h' ih =>
    have g := good_rounds hg (.step h (.refl _))
    have g1 := step_left hg.errflag h
    have g2 := ih g
    omega

/-- The error is found in the other stream too, unless there is another one before. -/
theorem twin_rounds {rest rest2 : List Tok} {c c' : Conf} (hr : Rounds c c') {toks : List Tok} {d0 : Def} (hg : Good toks d0 c)
    {c2 c1 : Conf} (h : Twin rest rest2 c c2) {s1 : Int}
    (hs : complains c' = .ok (some (s1, c1))) (hlen : rest.length ≤ c1.input.length) (hleft : rest2 = [] ∨ 0 < c1.left)
    (hmono : c1.left ≤ c'.left ∧ c1.input.length ≤ c'.input.length) :
    ∃ c2' e, Rounds c2 c2' ∧ step false c2' = .error e := by
  induction hr generalizing c2 with
  | refl c =>
    obtain ⟨⟨c21, g⟩, -⟩ := twin_complains h hs hlen hleft
    exact ⟨c2, .explicit, .refl _, (complains_spec c2).1 _ _ g false⟩
  | step h1 h' ih =>
    have g := good_rounds hg (.step h1 (.refl _))
    have gl := rounds_left h' g
    rcases twin_step h h1 (by omega) (by
      rcases hleft with h0 | h0
      · exact .inl h0
      · right; omega) with ⟨c21, k1, k2⟩ | ⟨e, k⟩
    · obtain ⟨c2', e, w1, w2⟩ := ih g k2 hs hmono
      exact ⟨c2', e, .step k1 w1, w2⟩
    · exact ⟨c2, e, .refl _, k⟩

theorem complains_left {c c1 : Conf} {s1 : Int} (he : c.errflag = 0) (hs : complains c = .ok (some (s1, c1))) :
    c1.left ≤ c.left ∧ c1.input.length ≤ c.input.length :=
  (twin_complains (rest := []) (rest2 := []) (c2 := c)
    ⟨rfl, rfl, rfl, he, he, c.input, c.input, by simp, by simp, rfl⟩ hs (by simp) (.inl rfl)).2

/-! ## The result -/

theorem rounds_error {c c' : Conf} (hr : Rounds c c') {e} (h : step false c' = .error e) : ∃ fuel, run false fuel c = some (.error e) := by
  induction hr with
  | refl c => exact ⟨1, by simp [run, h]⟩
  | step h1 _ ih =>
    obtain ⟨fuel, hf⟩ := ih h
    exact ⟨fuel + 1, by simp [run, h1, hf]⟩

theorem rounds_handler {c c' : Conf} (hr : Rounds c c') {r} (h : step true c' = r) {code : Int} {d : Def} (hd : r = .ok (.ret code d)) :
    ∃ fuel, run true fuel c = some (.ok (code, d)) := by
  subst hd
  induction hr with
  | refl c => exact ⟨1, by simp [run, h]⟩
  | @step c c1 c2 h1 _ ih =>
    obtain ⟨fuel, hf⟩ := ih h
    have hn : step true c = .ok (.next c1) := by
      cases hc : complains c with
      | error e => rw [(complains_spec c).2.2 e hc false] at h1; cases h1
      | ok o =>
        cases o with
        | none => rw [(complains_spec c).2.1 hc]; exact h1
        | some p => rw [(complains_spec c).1 _ _ hc false] at h1; cases h1
    exact ⟨fuel + 1, by simp [run, hn, hf]⟩

/-- The tokens are the beginning of a locale definition, as far as their kinds are concerned. -/
def Beginning (toks : List Tok) : Prop := ∃ ts ws : List Tm, toks.map Tok.code = ts.map Tm.code ∧ Grammatical (ts ++ ws)

/-- The tokens are a locale definition, as far as their kinds are concerned. -/
def Whole (toks : List Tok) : Prop := ∃ ts : List Tm, toks.map Tok.code = ts.map Tm.code ∧ Grammatical ts

/-- `k` tokens are a beginning, and with the next one (or with the end, if there is none) they are not. -/
def FirstWrong (toks : List Tok) (k : Nat) : Prop :=
  Beginning (toks.take k) ∧ ((k < toks.length ∧ ¬Beginning (toks.take (k + 1))) ∨ (k = toks.length ∧ ¬Whole toks))

theorem codes_split {toks : List Tok} {ts : List Tm} (h : toks.map Tok.code = ts.map Tm.code) (n : Nat) :
    (toks.take n).map Tok.code = (ts.take n).map Tm.code := by
  rw [List.map_take, List.map_take, h]

theorem Beginning.take {toks : List Tok} (h : Beginning toks) (n : Nat) : Beginning (toks.take n) := by
  obtain ⟨ts, ws, h1, h2⟩ := h
  refine ⟨ts.take n, ts.drop n ++ ws, codes_split h1 n, ?_⟩
  rw [← List.append_assoc, List.take_append_drop]
  exact h2

/-- There is only one such place. -/
theorem FirstWrong.unique {toks : List Tok} {k k' : Nat} (h : FirstWrong toks k) (h' : FirstWrong toks k') : k = k' := by
  have key : ∀ {k k'}, FirstWrong toks k → FirstWrong toks k' → ¬k < k' := by
    intro k k' h h' hlt
    have hl' : k' ≤ toks.length := by
      rcases h'.2 with h0 | h0
      · omega
      · omega
    rcases h.2 with h0 | h0
    · refine h0.2 ?_
      have := h'.1.take (k + 1)
      rwa [List.take_take, Nat.min_eq_left (by omega)] at this
    · omega
  have h1 := key h h'
  have h2 := key h' h
  omega

theorem toksOf_codes (ts : List Tm) : (toksOf ts).map Tok.code = ts.map Tm.code := by simp [toksOf]

/-- No error is found at the end of, or after, what is a locale definition up to the texts of its tokens. -/
theorem no_error_in {toks : List Tok} {d : Def} {c0 c1 : Conf} {s : Int} (hr : Rounds (start toks d) c0)
    (hs : complains c0 = .ok (some (s, c1))) {a rest : List Tok} (ht : toks = a ++ rest) {ts ws : List Tm}
    (ha : a.map Tok.code = ts.map Tm.code) (hg : Grammatical (ts ++ ws)) (hlen : rest.length ≤ c1.input.length)
    (hleft : ws = [] ∨ 0 < c1.left) : False := by
  have hgood := start_good toks d
  have hg0 := good_rounds hgood hr
  have hsim : Twin rest (toksOf ws) (start toks d) (start (toksOf (ts ++ ws)) d) :=
    ⟨rfl, rfl, rfl, rfl, rfl, a, toksOf ts, ht, by simp [start, toksOf], by rw [ha, toksOf_codes]⟩
  obtain ⟨c2', e, h1, h2⟩ := twin_rounds hr hgood hsim hs hlen (by
    rcases hleft with h0 | h0
    · exact .inl (by simp [h0, toksOf])
    · exact .inr h0) (complains_left hg0.errflag hs)
  obtain ⟨fuel, hf⟩ := rounds_error h1 h2
  obtain ⟨d', hd⟩ := grammatical_accepted hg false d
  rw [parse_eq hf] at hd
  cases hd

/-- **C117.** When the parser reports a syntax error, the tokens before the place are the beginning of a locale definition, and
with the token at that place they are not. -/
theorem C117_first_wrong (toks : List Tok) (hp : ∀ t ∈ toks, 0 < t.code) (d : Def) (k : Nat) (h : ErrorAt toks d k) : FirstWrong toks k := by
  obtain ⟨s, c, hrep, hk⟩ := h
  have hf := reports_found hrep
  obtain ⟨xs, vs, hst, done, he, ts, hc, hgen⟩ := hf.taken hp
  obtain ⟨c0, hr, hs⟩ := hrep
  have hkd : k = done.length := by
    have := congrArg List.length he
    simp only [List.length_append] at this
    omega
  obtain ⟨ws, hws⟩ := viable hst
  have htake : toks.take k = done := by rw [he, hkd, List.append_assoc, List.take_left']; rfl
  refine ⟨⟨ts, ws, by rw [htake]; exact hc, hws ts hgen⟩, ?_⟩
  by_cases hch : c.char < 0
  · have hin := hf.last hp hch
    have hlook : c.look = [] := by simp [Conf.look, hch]
    rw [hlook, hin] at he
    simp only [List.append_nil] at he
    refine .inr ⟨by rw [he]; exact hkd, ?_⟩
    rintro ⟨ts', e1, e2⟩
    refine no_error_in hr hs (a := toks) (rest := []) (by simp) e1 (ws := []) (by simpa using e2) (by simp) (.inl rfl)
  · have hlook : c.look = [⟨c.char, c.lval⟩] := by simp [Conf.look, hch]
    rw [hlook] at he
    refine .inl ⟨?_, ?_⟩
    · rw [he, hkd]; simp
    · rintro ⟨ts', ws', e1, e2⟩
      have htake1 : toks.take (k + 1) = done ++ [⟨c.char, c.lval⟩] := by
        rw [he, hkd]
        exact List.take_left' (by simp)
      rw [htake1] at e1
      exact no_error_in hr hs he e1 e2 (Nat.le_refl _) (.inr (by simp [Conf.left, hlook]; omega))

/-- **C117.** There is only one place, whatever was stored before. -/
theorem C117_one_place (toks : List Tok) (hp : ∀ t ∈ toks, 0 < t.code) (d d' : Def) (k k' : Nat) (h : ErrorAt toks d k)
    (h' : ErrorAt toks d' k') : k = k' :=
  (C117_first_wrong toks hp d k h).unique (C117_first_wrong toks hp d' k' h')

/-- **C117.** `Parse` returns 1 exactly when a syntax error is reported; without a handler it then panics. -/
theorem C117_result (toks : List Tok) (hp : ∀ t ∈ toks, 0 < t.code) (d : Def) :
    ((∃ d', parse true toks d = .ok (1, d')) ↔ ∃ k, ErrorAt toks d k) ∧ ((∃ k, ErrorAt toks d k) → parse false toks d = .error .explicit) := by
  refine ⟨⟨?_, ?_⟩, ?_⟩
  · rintro ⟨d', h⟩
    obtain ⟨r, hr, -⟩ := C58_stops true toks d
    have := parse_eq hr
    rw [h] at this
    subst this
    -- along the run
    have go : ∀ fuel c, Rounds (start toks d) c → run true fuel c = some (.ok (1, d')) → ∃ s c', Reports toks d s c' := by
      intro fuel
      induction fuel with
      | zero => intro c _ h; cases h
      | succ fuel ih =>
        intro c hrs h
        have hg := good_rounds (start_good toks d) hrs
        cases hc : complains c with
        | error e => simp [run, (complains_spec c).2.2 e hc] at h
        | ok o =>
          cases o with
          | some p => exact ⟨p.1, p.2, c, hrs, hc⟩
          | none =>
            have hsame := (complains_spec c).2.1 hc
            rw [run, hsame] at h
            rcases step_spec (handler := false) hg with ⟨c', e1, e2, -⟩ | ⟨dd, e1, -⟩ | ⟨dd, e1, e2⟩ | e1
            · simp only [e1] at h
              refine ih c' ?_ h
              exact hrs.trans (.step e1 (.refl _))
            · simp [e1] at h
            · cases e2
            · simp [e1] at h
    obtain ⟨s, c', hrep⟩ := go _ _ (.refl _) hr
    have hf := reports_found hrep
    obtain ⟨xs, vs, hst, done, he, -⟩ := hf.taken hp
    refine ⟨done.length, s, c', hrep, ?_⟩
    have := congrArg List.length he
    simp only [List.length_append] at this
    omega
  · rintro ⟨k, s, c, hrep, -⟩
    have hf := reports_found hrep
    obtain ⟨xs, vs, hst, -⟩ := hf.taken hp
    obtain ⟨c0, hr, hs⟩ := hrep
    have h1 := (complains_spec c0).1 _ _ hs true
    simp only [if_true, recover_spec hst] at h1
    obtain ⟨fuel, hfu⟩ := rounds_handler hr h1 rfl
    exact ⟨c.d, parse_eq hfu⟩
  · rintro ⟨k, s, c, ⟨c0, hr, hs⟩, -⟩
    obtain ⟨fuel, hfu⟩ := rounds_error hr ((complains_spec c0).1 _ _ hs false)
    exact parse_eq hfu

/-! ## Numbers that are numbers -/

/-- The texts of the number tokens are numbers. -/
def NumbersOK (toks : List Tok) : Prop := ∀ t ∈ toks, t.code = Tm.NUMBER.code → (∃ i, atoi? t.val = some i) ∧ 59 ∉ t.val

theorem atoiAll_total {l : List Bytes} (h : ∀ v ∈ l, ∃ i, atoi? v = some i) : ∃ ns, atoiAll l = .ok ns := by
  induction l with
  | nil => exact ⟨[], rfl⟩
  | cons v l ih =>
    obtain ⟨i, hi⟩ := h v (by simp)
    obtain ⟨ns, hn⟩ := ih fun x hx => h x (by simp [hx])
    exact ⟨i :: ns, by simp only [atoiAll, hi, hn]; rfl⟩

open Tm Nt Sym in
theorem prods_numbers : prodAt 121 = some ⟨monetary_keyword, [n mon_keyword_char, t NUMBER, t EOL]⟩ ∧
    prodAt 123 = some ⟨monetary_keyword, [n mon_keyword_grouping, n mon_group_list, t EOL]⟩ := by decide +kernel

theorem action_total {p : Nat} {pr : Prod} (hpr : prodAt p = some pr) (ha : pr.action = actionOf p) (hr : r2P p = pr.rhs.length)
    {rhs : List Entry} (hl : rhs.length = pr.rhs.length) (hs : ∀ e ∈ rhs, e.state < 316) (above : List Bytes) (d : Def)
    {ts : List Tok} {d0 d1 : Def} (hd : Derives pr.rhs ts d0 (rhs.map Entry.val) d1) (hn : NumbersOK ts) :
    action p rhs ((rhs.map Entry.val ++ above).headD []) d ≠ .error .explicit := by
  intro herr
  rcases action_spec ha hr hl hs above d with ⟨v, d', h1, -⟩ | -
  · rw [h1] at herr; cases herr
  obtain ⟨s1, s2, s3, s4, s5, s6, s7⟩ := r2_special
  obtain ⟨p1, p2⟩ := prods_numbers
  by_cases h121 : p = 121
  · subst h121
    obtain ⟨a, b, e, rfl⟩ := len3 (l := rhs) (by omega)
    rw [p1] at hpr
    cases hpr
    obtain ⟨ts1, ts2, v, vs', dd, e1, e2, e3, e4⟩ := hd.cons_inv
    simp only [List.map_cons, List.map_nil, List.cons.injEq] at e2
    obtain ⟨e2, rfl⟩ := e2
    obtain ⟨ts3, ts4, v', vs'', dd', f1, f2, f3, f4⟩ := e4.cons_inv
    simp only [List.cons.injEq] at f2
    obtain ⟨f2, rfl⟩ := f2
    subst f2
    have := f3.tm_inv.1
    obtain ⟨⟨i, hi⟩, -⟩ := hn ⟨Tm.NUMBER.code, b.val⟩ (by rw [e1, f1, this]; simp) rfl
    have hst : a.state ≠ intFracDigitsStr := by
      have := hs a (by simp)
      simp only [intFracDigitsStr]; omega
    simp only [action, assignMonetaryNumber, hi, if_neg hst] at herr
    cases herr
  by_cases h123 : p = 123
  · subst h123
    obtain ⟨a, b, e, rfl⟩ := len3 (l := rhs) (by omega)
    rw [p2] at hpr
    cases hpr
    obtain ⟨ts1, ts2, v, vs', dd, e1, e2, e3, e4⟩ := hd.cons_inv
    simp only [List.map_cons, List.map_nil, List.cons.injEq] at e2
    obtain ⟨e2, rfl⟩ := e2
    obtain ⟨ts3, ts4, v', vs'', dd', f1, f2, f3, f4⟩ := e4.cons_inv
    simp only [List.cons.injEq] at f2
    obtain ⟨f2, rfl⟩ := f2
    subst f2
    obtain ⟨g1, g2, g3, g4⟩ := group_spec ts3.length (Nat.le_refl _) f3
    have hmem : ∀ x ∈ numbers ts3, (∃ i, atoi? x = some i) ∧ 59 ∉ x := by
      intro x hx
      simp only [numbers, List.mem_map, List.mem_filter, beq_iff_eq] at hx
      obtain ⟨t, ⟨ht1, ht2⟩, rfl⟩ := hx
      exact hn t (by rw [e1, f1]; simp [ht1]) ht2
    obtain ⟨ns, hns⟩ := atoiAll_total fun x hx => (hmem x hx).1
    have hsp := split_semis g2 fun x hx => (hmem x hx).2
    simp only [action, assignMonetaryGrouping, g1, hsp, hns] at herr
    cases herr
  by_cases h122 : p = 122
  · subst h122
    obtain ⟨a, b, e, rfl⟩ := len3 (l := rhs) (by omega)
    have hst : a.state ≠ intFracDigitsStr := by
      have := hs a (by simp)
      simp only [intFracDigitsStr]; omega
    simp only [action, assignMonetaryNumber, atoi_minus_one, if_neg hst] at herr
    cases herr
  · have h1 : ¬((p : Int) = 121) := by omega
    have h2 : ¬((p : Int) = 122) := by omega
    have h3 : ¬((p : Int) = 123) := by omega
    simp only [action, if_neg h1, if_neg h2, if_neg h3] at herr
    grind

theorem reduce_total {toks : List Tok} (hp : ∀ t ∈ toks, 0 < t.code) (hnum : NumbersOK toks) {d0 : Def} {c : Conf} (h : Good toks d0 c)
    {e : Entry} {below : List Entry} (hst : c.stack = e :: below) {s : Nat} (hs : e.state = s) {n : Nat} (hn : defP s = n)
    (hpos : 0 < n) : reduce c n ≠ .error .explicit := by
  obtain ⟨⟨xs, vs, done, h1, h2, h3⟩, h4, h5⟩ := h
  have hs3 : s < 316 := by
    rw [hst] at h1
    obtain ⟨s', e1, e2⟩ := h1.top
    omega
  have hred := List.all_eq_true.mp reds_ok s (by simp; omega)
  unfold redOK at hred
  rw [hn, if_pos (by omega)] at hred
  simp only [Bool.and_eq_true, decide_eq_true_eq, Int.toNat_natCast] at hred
  have hn1 : n < 191 := by omega
  obtain ⟨pr, hp1, hp2, hp3, hp4, hp5⟩ := prod_facts (p := n) (by omega) hn1
  rw [hp1] at hred
  simp only at hred
  have hst' : c.stack = ⟨(s : Int), e.val⟩ :: below := by rw [hst, ← hs]
  obtain ⟨xs', vs1, vs2, q, u, below', e1, e2, e3, e4, e5, e5', e6, e7, e8⟩ := chain_pop h1 hst' hred.2
  have hlen : (pr.rhs.reverse).length = pr.rhs.length := List.length_reverse
  rw [hlen] at e3 e4 e6 e7
  have hlhs : pr.lhs.ctorIdx < 73 := by
    have := Nt.list_get pr.lhs
    have := (List.getElem?_eq_some_iff.mp this).1
    exact this
  have hr1 : r1P n = ((pr.lhs.ctorIdx + 1 : Nat) : Int) := by
    rw [hp3]; simp only [Sym.num]; omega
  have hkst : pr.rhs.length < c.stack.length := by
    have : (c.stack.drop pr.rhs.length).length = (⟨(q : Int), u⟩ :: below' : List Entry).length := by rw [e4]
    simp only [List.length_drop, List.length_cons] at this
    omega
  have hrl : ((c.stack.take pr.rhs.length).reverse).length = pr.rhs.length := by
    simp only [List.length_reverse, List.length_take]
    omega
  have hval : ((c.stack.take pr.rhs.length).reverse).map Entry.val = vs1.reverse := by
    rw [List.map_reverse, e6]
  rw [e1, e2, List.reverse_append, List.reverse_append, List.reverse_reverse] at h2
  obtain ⟨t1, t2, d1, ht, hd1, hd2⟩ := h2.split (by simp; rw [e5.length])
  rw [← hval] at hd2
  have hnt : NumbersOK t2 := fun t htm => hnum t (by rw [h3 hp, ht]; simp [htm])
  have hact := action_total hp1 hp5 hp4 hrl (fun e he => e7 e (by simpa using he)) c.above c.d hd2 hnt
  intro herr
  apply hact
  simp only [reduce, at_r2 hn1, hp4] at herr
  simp only [bind, Except.bind, Int.toNat_natCast, e4, at_r1 hn1, hr1, goto_spec (show pr.lhs.ctorIdx + 1 < 74 by omega)] at herr
  split at herr
  · rename_i er her
    cases herr
    exact her
  · cases herr

theorem dflt_total {toks : List Tok} (hp : ∀ t ∈ toks, 0 < t.code) (hnum : NumbersOK toks) {d0 : Def} {c : Conf} (h : Good toks d0 c)
    {e : Entry} {below : List Entry} (hst : c.stack = e :: below) {s : Nat} (hs : e.state = s) (hs3 : s < 316)
    (hc : dfltComplains c s = .ok none) : dflt false c s ≠ .error .explicit := by
  have hred := List.all_eq_true.mp reds_ok s (by simp; omega)
  unfold redOK at hred
  unfold dfltComplains at hc
  simp only [dflt, at_def hs3, bind, Except.bind] at hc ⊢
  by_cases hpos : defP s > 0
  · rw [if_neg (by omega)]
    simp only [act]
    rw [if_neg (by omega)]
    have hn : defP s = ((defP s).toNat : Nat) := by omega
    rw [hn]
    exact reduce_total hp hnum h hst hs hn (by omega)
  · rw [if_neg hpos] at hred
    simp only [Bool.or_eq_true, Bool.and_eq_true, beq_iff_eq] at hred
    rcases hred with h0 | ⟨h2, h1⟩
    · simp [h0, h.errflag] at hc
    · rw [if_pos h2] at hc ⊢
      subst h1
      obtain ⟨c', hl, hg, l1, l2, l3, l4, l5, l6, l7⟩ := lex_spec h
      simp only [hl] at hc ⊢
      rw [show ((1 : Nat) : Int) = 1 from rfl, yyExca_eq] at hc ⊢
      simp only [findExca, and_self, if_true] at hc ⊢
      by_cases ht : c'.token = 1
      · simp [excaAct, ht]
      · simp only [excaAct] at hc
        rw [if_neg (by simp only [not_or]; exact ⟨by omega, fun h => ht h.symm⟩)] at hc
        simp [hg.errflag] at hc

theorem step_total {toks : List Tok} (hp : ∀ t ∈ toks, 0 < t.code) (hnum : NumbersOK toks) {d0 : Def} {c : Conf} (h : Good toks d0 c)
    (hc : complains c = .ok none) : step false c ≠ .error .explicit := by
  obtain ⟨xs, vs, done, h1, h2, h3⟩ := h.stack
  cases hst : c.stack with
  | nil => rw [hst] at h1; cases h1
  | cons e below =>
    rw [hst] at h1
    obtain ⟨s, hs, hs3⟩ := h1.top
    unfold complains at hc
    simp only [step, hst, hs, at_pact hs3, bind, Except.bind] at hc ⊢
    by_cases hf : pactP s ≤ yyFlag
    · rw [if_pos hf] at hc ⊢
      exact dflt_total hp hnum h hst hs hs3 hc
    · rw [if_neg hf] at hc ⊢
      obtain ⟨c', hl, hg, l1, l2, l3, l4, l5, l6, l7⟩ := lex_spec h
      simp only [hl] at hc ⊢
      by_cases hb : pactP s + c'.token < 0 ∨ pactP s + c'.token ≥ yyLast
      · rw [if_pos hb] at hc ⊢
        exact dflt_total hp hnum hg (l1.trans hst) hs hs3 hc
      · rw [if_neg hb] at hc ⊢
        simp only [yyLast, not_or] at hb
        obtain ⟨x, hx, hx', hx3⟩ := act_bound (n := pactP s + c'.token) (by omega) (by omega)
        simp only [hx, at_chk hx3] at hc ⊢
        by_cases hk : chkP x = c'.token
        · rw [if_pos hk]
          simp
        · rw [if_neg hk] at hc ⊢
          exact dflt_total hp hnum hg (l1.trans hst) hs hs3 hc

theorem dfltComplains_total {toks : List Tok} {d0 : Def} {c : Conf} (h : Good toks d0 c) {s : Nat} (hs3 : s < 316) :
    dfltComplains c s ≠ .error .explicit := by
  have hred := List.all_eq_true.mp reds_ok s (by simp; omega)
  unfold redOK at hred
  unfold dfltComplains
  simp only [at_def hs3, bind, Except.bind]
  by_cases h2 : defP s = -2
  · rw [if_neg (by omega)] at hred
    simp only [Bool.or_eq_true, Bool.and_eq_true, beq_iff_eq] at hred
    obtain rfl : s = 1 := by omega
    rw [if_pos h2]
    obtain ⟨c', hl, hg, l1, l2, l3, l4, l5, l6, l7⟩ := lex_spec h
    simp only [hl]
    rw [show ((1 : Nat) : Int) = 1 from rfl, yyExca_eq]
    simp only [findExca, and_self, if_true]
    by_cases ht : c'.token = 1
    · simp [excaAct, ht]
    · simp only [excaAct]
      rw [if_neg (by simp only [not_or]; exact ⟨by omega, fun h => ht h.symm⟩)]
      simp
  · rw [if_neg h2]
    simp

theorem complains_total {toks : List Tok} {d0 : Def} {c : Conf} (h : Good toks d0 c) : complains c ≠ .error .explicit := by
  obtain ⟨xs, vs, done, h1, h2, h3⟩ := h.stack
  cases hst : c.stack with
  | nil => rw [hst] at h1; cases h1
  | cons e below =>
    rw [hst] at h1
    obtain ⟨s, hs, hs3⟩ := h1.top
    unfold complains
    simp only [hst, hs, at_pact hs3, bind, Except.bind]
    by_cases hf : pactP s ≤ yyFlag
    · rw [if_pos hf]
      exact dfltComplains_total h hs3
    · rw [if_neg hf]
      obtain ⟨c', hl, hg, l1, l2, l3, l4, l5, l6, l7⟩ := lex_spec h
      simp only [hl]
      by_cases hb : pactP s + c'.token < 0 ∨ pactP s + c'.token ≥ yyLast
      · rw [if_pos hb]
        exact dfltComplains_total hg hs3
      · rw [if_neg hb]
        simp only [yyLast, not_or] at hb
        obtain ⟨x, hx, hx', hx3⟩ := act_bound (n := pactP s + c'.token) (by omega) (by omega)
        simp only [hx, at_chk hx3]
        by_cases hk : chkP x = c'.token
        · rw [if_pos hk]
          simp
        · rw [if_neg hk]
          exact dfltComplains_total hg hs3

/-- With numbers that are numbers `Parse` with a handler does not panic. -/
theorem no_panic {toks : List Tok} (hp : ∀ t ∈ toks, 0 < t.code) (hnum : NumbersOK toks) (d : Def) : parse true toks d ≠ .error .explicit := by
  intro herr
  obtain ⟨r, hr, -⟩ := C58_stops true toks d
  have := parse_eq hr
  rw [herr] at this
  subst this
  have go : ∀ fuel c, Good toks d c → run true fuel c = some (.error .explicit) → False := by
    intro fuel
    induction fuel with
    | zero => intro c _ h; cases h
    | succ fuel ih =>
      intro c hg h
      obtain ⟨xs, vs, done, h1, -⟩ := hg.stack
      cases hc : complains c with
      | error e =>
        have h2 := (complains_spec c).2.2 e hc
        rcases step_spec (handler := true) hg with ⟨c', e1, -⟩ | ⟨dd, e1, -⟩ | ⟨dd, e1, e2⟩ | e1
        · rw [h2] at e1; cases e1
        · rw [h2] at e1; cases e1
        · rw [h2] at e1; cases e1
        · rw [h2] at e1
          cases e1
          exact complains_total hg hc
      | ok o =>
        cases o with
        | some p =>
          have hf := complains_found hg hc
          obtain ⟨xs, vs, hst, -⟩ := hf.taken hp
          have h2 := (complains_spec c).1 _ _ hc true
          simp only [if_true, recover_spec hst] at h2
          simp [run, h2] at h
        | none =>
          have hsame := (complains_spec c).2.1 hc
          rw [run, hsame] at h
          rcases step_spec (handler := false) hg with ⟨c', e1, e2, -⟩ | ⟨dd, e1, -⟩ | ⟨dd, e1, e2⟩ | e1
          · simp only [e1] at h
            exact ih c' e2 h
          · simp [e1] at h
          · cases e2
          · exact step_total hp hnum hg hc e1
  exact go _ _ (start_good toks d) hr

/-- **C117.** If the number tokens have numbers as texts, a syntax error is reported exactly when the tokens are no locale
definition, and at the first token that cannot be there. -/
theorem C117_exact (toks : List Tok) (hp : ∀ t ∈ toks, 0 < t.code) (hnum : NumbersOK toks) (d : Def) :
    (∀ k, ErrorAt toks d k ↔ FirstWrong toks k) ∧ ((∃ k, FirstWrong toks k) ↔ ¬Whole toks) := by
  have whole_no : Whole toks → ¬∃ k, FirstWrong toks k := by
    rintro ⟨ts, h1, h2⟩ ⟨k, -, h | h⟩
    · have hb : Beginning toks := ⟨ts, [], h1, by simpa using h2⟩
      exact h.2 (hb.take _)
    · exact h.2 ⟨ts, h1, h2⟩
  have found : ¬Whole toks → ∃ k, ErrorAt toks d k := by
    intro hw
    obtain ⟨r, hr, h1⟩ := C58_stops true toks d
    have hpe := parse_eq hr
    rcases h1 with ⟨d', rfl⟩ | ⟨d', rfl, -⟩ | rfl
    · obtain ⟨v, hv⟩ := (C57_exact true toks hp d d').mp hpe
      obtain ⟨ts, e1, e2⟩ := hv.generates
      exact absurd ⟨ts, e1, e2⟩ hw
    · exact (C117_result toks hp d).1.mp ⟨d', hpe⟩
    · exact absurd hpe (no_panic hp hnum d)
  refine ⟨fun k => ⟨C117_first_wrong toks hp d k, fun h => ?_⟩, fun h hw => whole_no hw h, fun h => ?_⟩
  · obtain ⟨k', hk'⟩ := found fun hw => whole_no hw ⟨k, h⟩
    rw [h.unique (C117_first_wrong toks hp d k' hk')]
    exact hk'
  · obtain ⟨k, hk⟩ := found h
    exact ⟨k, C117_first_wrong toks hp d k hk⟩

end Locale
