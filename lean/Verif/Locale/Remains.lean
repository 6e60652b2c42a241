import Verif.Locale.CollateFile

/-! # What is defined after several locale files (C116)

The definitions are kept in one package variable (localedef.y:8, y.go:15 `var def Def`), which nothing ever resets. -/

namespace Locale
open Go

/-! ## Specification -/

/-- The currency symbols a statement gives; an empty one is kept as its two quotes. -/
def Stmt.symbols (s : Stmt) : List Bytes :=
  match s.val with
  | .str r => if s.word = b!"int_curr_symbol" then [if r = [] then b!"\"\"" else ofRunes r] else []
  | _ => []

/-- The groupings a statement gives. -/
def Stmt.groupings (s : Stmt) : List (List Int) :=
  match s.val with
  | .ints is => if s.word = b!"mon_grouping" then [is] else []
  | _ => []

/-- The statements of a section of a file; a collating section has none of these. -/
def Part.stmts : Part → List Stmt
  | .plain s => s.stmts
  | .collate _ => []

/-- All currency symbols a file gives, in order. -/
def symbols (f : List Part) : List Bytes := (f.flatMap Part.stmts).flatMap Stmt.symbols

/-- All groupings a file gives, in order. -/
def groupings (f : List Part) : List (List Int) := (f.flatMap Part.stmts).flatMap Stmt.groupings

/-- A file: its sections and its lines, among them comments. -/
structure IsFile (f : List Part) (lines : List Bytes) : Prop where
  ne : f ≠ []
  wf : ∀ p ∈ f, p.WF
  acc : ∀ p ∈ f, p.Accepted
  comments : ∀ l ∈ lines, isComment l = true → PlainLine l
  lines_ : lines.filter (fun l => !isComment l) = f.flatMap Part.lines

/-- The files `xs` are read one after the other, by `NewLexer` and `yyParse` (as in parse_test.go:145-155), all with the result 0. -/
inductive ReadAll (handler : Bool) (n : Nat) : List Bytes → Def → Def → Prop
  | nil (d : Def) : ReadAll handler n [] d d
  | cons {x : Bytes} {xs : List Bytes} {d d1 d2 : Def} {toks : List Tok} {l : L} (lexed : newLexer n x = .ok toks l)
    (parsed : parse handler toks d = .ok (0, d1)) (rest : ReadAll handler n xs d1 d2) : ReadAll handler n (x :: xs) d d2

/-! ## Proofs -/

theorem Stmt.defines_eq (d : Def) (s : Stmt) :
    s.defines d = { intCurrSymbol := s.symbols.getLast?.getD d.intCurrSymbol, intFracDigits := d.intFracDigits, monGrouping := s.groupings.getLast?.getD d.monGrouping } := by
  unfold Stmt.defines Stmt.symbols Stmt.groupings
  rcases s with ⟨lead, word, gap, val, after⟩
  by_cases h1 : word = b!"mon_grouping"
  · subst h1
    cases val <;> simp
  · by_cases h2 : word = b!"int_curr_symbol"
    · subst h2
      cases val <;> simp
    · cases val <;> simp [h1, h2]

theorem getLast?_append_getD {α : Type} (xs ys : List α) (a : α) : (xs ++ ys).getLast?.getD a = ys.getLast?.getD (xs.getLast?.getD a) := by
  rw [List.getLast?_append]
  cases ys.getLast? <;> simp

theorem stmts_defines (ss : List Stmt) (d : Def) :
    ss.foldl Stmt.defines d = { intCurrSymbol := (ss.flatMap Stmt.symbols).getLast?.getD d.intCurrSymbol, intFracDigits := d.intFracDigits, monGrouping := (ss.flatMap Stmt.groupings).getLast?.getD d.monGrouping } := by
  induction ss generalizing d with
  | nil => simp
  | cons s ss ih => rw [List.foldl_cons, ih, Stmt.defines_eq, List.flatMap_cons, List.flatMap_cons, getLast?_append_getD, getLast?_append_getD]

theorem parts_defines (f : List Part) (d : Def) :
    f.foldl Part.defines d = { intCurrSymbol := (symbols f).getLast?.getD d.intCurrSymbol, intFracDigits := d.intFracDigits, monGrouping := (groupings f).getLast?.getD d.monGrouping } := by
  have e : f.foldl Part.defines d = (f.flatMap Part.stmts).foldl Stmt.defines d := by
    induction f generalizing d with
    | nil => rfl
    | cons p f ih =>
      rw [List.foldl_cons, ih, List.flatMap_cons, List.foldl_append]
      cases p <;> rfl
  rw [e, stmts_defines]
  rfl

/-! ## Theorems -/

/-- **C116** (what happens) After any number of files, read one after the other, the currency symbol and the grouping are those
of the last statement in any of them, not in the last file; without such a statement they are what they were; the number of
fraction digits is never changed. -/
theorem C116_all_files (handler : Bool) (files : List (List Part × List Bytes)) (h : ∀ x ∈ files, IsFile x.1 x.2) (d : Def) :
    ∃ N, ∀ n, N ≤ n → ∃ d', ReadAll handler n (files.map fun x => unlines x.2) d d' ∧
      d'.intCurrSymbol = ((files.map fun x => symbols x.1).flatten).getLast?.getD d.intCurrSymbol ∧
      d'.monGrouping = ((files.map fun x => groupings x.1).flatten).getLast?.getD d.monGrouping ∧
      d'.intFracDigits = d.intFracDigits := by
  induction files generalizing d with
  | nil => exact ⟨0, fun n _ => ⟨d, .nil d, by simp, by simp, rfl⟩⟩
  | cons x files ih =>
    obtain ⟨ne, wf, acc, hc, hl⟩ := h x (by simp)
    obtain ⟨N1, h1⟩ := C78_collate x.1 ne wf acc x.2 hc hl handler d
    obtain ⟨N2, h2⟩ := ih (fun y hy => h y (by simp [hy])) (x.1.foldl Part.defines d)
    refine ⟨max N1 N2, fun n hn => ?_⟩
    obtain ⟨toks, l, a1, a2⟩ := h1 n (by omega)
    obtain ⟨d', b1, b2, b3, b4⟩ := h2 n (by omega)
    rw [parts_defines] at b2 b3 b4
    refine ⟨d', .cons a1 a2 b1, ?_, ?_, b4⟩
    · rw [b2, List.map_cons, List.flatten_cons, getLast?_append_getD]
    · rw [b3, List.map_cons, List.flatten_cons, getLast?_append_getD]

/-- **C116** (true for files that give both) If a file gives a currency symbol and a grouping, these are defined after it,
whatever has been read before. -/
theorem C116_complete_partial (handler : Bool) (f : List Part) (lines : List Bytes) (h : IsFile f lines)
    (s : Bytes) (g : List Int) (hs : (symbols f).getLast? = some s) (hg : (groupings f).getLast? = some g) (d : Def) :
    ∃ N, ∀ n, N ≤ n → ∃ toks l, newLexer n (unlines lines) = .ok toks l ∧
      parse handler toks d = .ok (0, { intCurrSymbol := s, intFracDigits := d.intFracDigits, monGrouping := g }) := by
  obtain ⟨N, hN⟩ := C78_collate f h.ne h.wf h.acc lines h.comments h.lines_ handler d
  refine ⟨N, fun n hn => ?_⟩
  obtain ⟨toks, l, a1, a2⟩ := hN n hn
  refine ⟨toks, l, a1, ?_⟩
  rw [a2, parts_defines, hs, hg]
  rfl

theorem means_frac {a : Action} {ws : List Bytes} {d d' : Def} {v : Bytes} (h : Means a ws d v d') : d'.intFracDigits = d.intFracDigits := by
  cases h <;> rfl

theorem derives_frac {ss : List Sym} {ts : List Tok} {d d' : Def} {vs : List Bytes} (h : Derives ss ts d vs d') : d'.intFracDigits = d.intFracDigits := by
  induction h with
  | nil d => rfl
  | tm x v ss ts d d' vs h ih => exact ih
  | nt p hp ts ts' d d1 d2 d3 ws v ss vs h hm h' ih ih' =>
    rw [ih', ← ih]
    exact means_frac hm

/-- **C116** (the expectation fails) The number of fraction digits is not stored: whatever numbers an accepted token stream
has, it is the same before and after. -/
theorem C116_numbers_lost (handler : Bool) (toks : List Tok) (hp : ∀ t ∈ toks, 0 < t.code) (d d' : Def)
    (h : parse handler toks d = .ok (0, d')) : d'.intFracDigits = d.intFracDigits := by
  obtain ⟨v, hd⟩ := (C57_exact handler toks hp d d').mp h
  exact derives_frac hd

/-- A file with a currency symbol, fraction digits and no grouping. -/
def euroFile : List Part := [.plain { cat := .monetary, stmts := [{ word := b!"int_curr_symbol", val := .str [69, 85, 82] }, { word := b!"int_frac_digits", val := .int 2 }] }]

/-- A file with a grouping only. -/
def groupFile : List Part := [.plain { cat := .monetary, stmts := [{ word := b!"mon_grouping", val := .ints [3] }] }]

theorem no_comments (ls : List Bytes) (h : ∀ l ∈ ls, isComment l = false) : ∀ l ∈ ls, isComment l = true → PlainLine l := by
  intro l hl hc
  rw [h l hl] at hc
  cases hc

theorem euroFile_ok : IsFile euroFile [b!"LC_MONETARY", b!"int_curr_symbol \"EUR\"", b!"int_frac_digits 2", b!"END LC_MONETARY"] := by
  refine ⟨by simp [euroFile], ?_, ?_, no_comments _ (by decide), by decide +kernel⟩
  · intro p hp
    simp only [euroFile, List.mem_cons, List.not_mem_nil, or_false] at hp
    subst hp
    refine ⟨?_, by decide, by decide, by decide, by decide⟩
    intro x hx
    simp only [List.mem_cons, List.not_mem_nil, or_false] at hx
    rcases hx with rfl | rfl
    · refine ⟨by decide, by decide, by decide, by decide, ?_⟩
      exact (by decide : strOk [69, 85, 82] = true)
    · exact ⟨by decide, by decide, by decide, by decide, trivial⟩
  · intro p hp
    simp only [euroFile, List.mem_cons, List.not_mem_nil, or_false] at hp
    subst hp
    refine ⟨by simp, ?_⟩
    intro x hx
    simp only [List.mem_cons, List.not_mem_nil, or_false] at hx
    rcases hx with rfl | rfl
    · exact ⟨by decide, by intro h; cases h⟩
    · exact ⟨by decide, by unfold Val.Accepted FitsInt; omega⟩

theorem groupFile_ok : IsFile groupFile [b!"LC_MONETARY", b!"mon_grouping 3", b!"END LC_MONETARY"] := by
  refine ⟨by simp [groupFile], ?_, ?_, no_comments _ (by decide), by decide +kernel⟩
  · intro p hp
    simp only [groupFile, List.mem_cons, List.not_mem_nil, or_false] at hp
    subst hp
    refine ⟨?_, by decide, by decide, by decide, by decide⟩
    intro x hx
    simp only [List.mem_cons, List.not_mem_nil, or_false] at hx
    subst hx
    exact ⟨by decide, by decide, by decide, by decide, by simp [Val.WF]⟩
  · intro p hp
    simp only [groupFile, List.mem_cons, List.not_mem_nil, or_false] at hp
    subst hp
    refine ⟨by simp, ?_⟩
    intro x hx
    simp only [List.mem_cons, List.not_mem_nil, or_false] at hx
    subst hx
    refine ⟨by decide, ?_⟩
    intro i hi
    simp only [List.mem_cons, List.not_mem_nil, or_false] at hi
    subst hi
    unfold FitsInt; omega

/-- **C116** (the expectation fails) Read alone, a file without a currency symbol leaves the symbol empty; read after another
one, it has the other's symbol. The two fraction digits of the first are lost. -/
theorem C116_counterexample : ∃ N, ∀ n, N ≤ n →
    ReadAll false n [b!"LC_MONETARY\nmon_grouping 3\nEND LC_MONETARY\n"] {} { intCurrSymbol := [], intFracDigits := 0, monGrouping := [3] } ∧
    ReadAll false n [b!"LC_MONETARY\nint_curr_symbol \"EUR\"\nint_frac_digits 2\nEND LC_MONETARY\n", b!"LC_MONETARY\nmon_grouping 3\nEND LC_MONETARY\n"] {}
      { intCurrSymbol := b!"EUR", intFracDigits := 0, monGrouping := [3] } := by
  obtain ⟨N1, h1⟩ := C116_all_files false [(groupFile, [b!"LC_MONETARY", b!"mon_grouping 3", b!"END LC_MONETARY"])]
    (by intro x hx; simp only [List.mem_cons, List.not_mem_nil, or_false] at hx; subst hx; exact groupFile_ok) {}
  obtain ⟨N2, h2⟩ := C116_all_files false [(euroFile, [b!"LC_MONETARY", b!"int_curr_symbol \"EUR\"", b!"int_frac_digits 2", b!"END LC_MONETARY"]),
      (groupFile, [b!"LC_MONETARY", b!"mon_grouping 3", b!"END LC_MONETARY"])]
    (by intro x hx; simp only [List.mem_cons, List.not_mem_nil, or_false] at hx; rcases hx with rfl | rfl; exact euroFile_ok; exact groupFile_ok) {}
  refine ⟨max N1 N2, fun n hn => ⟨?_, ?_⟩⟩
  · obtain ⟨⟨a, b, c⟩, r, e1, e2, e3⟩ := h1 n (by omega)
    simp only at e1 e2 e3
    have f1 : ((List.map (fun x : List Part × List Bytes => symbols x.1) [(groupFile, [b!"LC_MONETARY", b!"mon_grouping 3", b!"END LC_MONETARY"])]).flatten).getLast?.getD [] = [] := by decide +kernel
    have f2 : ((List.map (fun x : List Part × List Bytes => groupings x.1) [(groupFile, [b!"LC_MONETARY", b!"mon_grouping 3", b!"END LC_MONETARY"])]).flatten).getLast?.getD [] = [3] := by decide +kernel
    rw [f1] at e1
    rw [f2] at e2
    subst e1 e2 e3
    exact r
  · obtain ⟨⟨a, b, c⟩, r, e1, e2, e3⟩ := h2 n (by omega)
    simp only at e1 e2 e3
    have f1 : a = b!"EUR" := by rw [e1]; decide +kernel
    have f2 : c = [3] := by rw [e2]; decide +kernel
    subst f1 f2 e3
    exact r

/-- The hypotheses of `C116_complete_partial` are met by the sample file of C78. -/
example : (symbols (sampleFile.map Part.plain)).getLast? = some b!"EÜR\\;\\x20" ∧ (groupings (sampleFile.map Part.plain)).getLast? = some [3, -1] := by
  decide +kernel

end Locale
