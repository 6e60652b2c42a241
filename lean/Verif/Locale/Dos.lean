import Verif.Locale.Mistakes
import Verif.Locale.CollateFile

/-! # Locale files with carriage returns (C134)

`newLine` is `"\n\r"` (localelex.go:16), so that the lexer takes any run of newlines and carriage returns for one line end.
But `removeComments` (localelex.go:502-541) splits at newlines only, and an escape character before a carriage return is not
the last character of its line. -/

namespace Locale
open Go

/-! ## Specification -/

/-- The second list of lines is the first with carriage returns at the end of any of the lines. -/
inductive WithReturns : List Bytes → List Bytes → Prop
  | nil : WithReturns [] []
  | cons (l : Bytes) (j : Nat) {ls ls' : List Bytes} : WithReturns ls ls' → WithReturns (l :: ls) ((l ++ List.replicate j 13) :: ls')

/-- A text of lines, each ended as DOS does. -/
def dosText (lines : List Bytes) : Bytes := lines.flatMap fun l => l ++ [13, 10]

/-! ## Lines with carriage returns -/

theorem withReturns_append {a b c : List Bytes} (h : WithReturns (a ++ b) c) :
    ∃ c1 c2, c = c1 ++ c2 ∧ WithReturns a c1 ∧ WithReturns b c2 := by
  induction a generalizing c with
  | nil => exact ⟨[], c, rfl, .nil, h⟩
  | cons x a ih =>
    cases h with
    | cons _ j h =>
      obtain ⟨c1, c2, rfl, h1, h2⟩ := ih h
      exact ⟨_ :: c1, c2, rfl, .cons x j h1, h2⟩

theorem comment_returns (l : Bytes) (j : Nat) : isComment (l ++ List.replicate j 13) = isComment l := by
  cases l with
  | nil => cases j <;> rfl
  | cons b l => rfl

theorem withReturns_filter {a b : List Bytes} (h : WithReturns a b) :
    WithReturns (a.filter fun l => !isComment l) (b.filter fun l => !isComment l) := by
  induction h with
  | nil => exact .nil
  | cons l j _ ih =>
    cases hc : isComment l
    · rw [List.filter_cons_of_pos (by simp [hc]), List.filter_cons_of_pos (by simp [comment_returns, hc])]
      exact .cons l j ih
    · rw [List.filter_cons_of_neg (by simp [hc]), List.filter_cons_of_neg (by simp [comment_returns, hc])]
      exact ih

theorem withReturns_mem {a b : List Bytes} (h : WithReturns a b) : ∀ l' ∈ b, ∃ l ∈ a, ∃ j, l' = l ++ List.replicate j 13 := by
  induction h with
  | nil => intro l' h; cases h
  | cons l j _ ih =>
    intro l' h
    rcases List.mem_cons.mp h with rfl | h
    · exact ⟨l, by simp, j, rfl⟩
    · obtain ⟨x, hx, q⟩ := ih l' h
      exact ⟨x, by simp [hx], q⟩

theorem plain_returns {l : Bytes} (h : PlainLine l) (j : Nat) : PlainLine (l ++ List.replicate j 13) := by
  cases j with
  | zero => simpa using h
  | succ j =>
    obtain ⟨p1, p2, p3, -⟩ := h
    refine ⟨?_, fun h => p2 (prefix_crs (j := j + 1) (by decide) h), fun h => p3 (prefix_crs (j := j + 1) (by decide) h),
      .inr (Solid.ends ⟨l ++ crs j, 13, by simp [crs, List.replicate_succ'], by decide, by decide⟩)⟩
    simp only [List.mem_append, not_or]
    exact ⟨p1, cr_not_nl (j + 1)⟩

theorem ends_returns {x : Bytes} {k : Ends} {ls : List Bytes} (h : WithReturns (withEnds x k) ls) : ∃ k', ls = withEnds x k' := by
  obtain ⟨f, bl⟩ := k
  unfold withEnds at h
  cases h with
  | cons _ j h =>
    have : ∀ (bl : List Nat) ls, WithReturns (bl.map crs) ls → ∃ bl' : List Nat, ls = bl'.map crs := by
      intro bl
      induction bl with
      | nil => intro ls h; cases h; exact ⟨[], rfl⟩
      | cons b bl ih =>
        intro ls h
        rw [List.map_cons] at h
        cases h with
        | cons _ j h =>
          obtain ⟨bl', rfl⟩ := ih _ h
          exact ⟨(b + j) :: bl', by simp [crs, List.replicate_append_replicate]⟩
    obtain ⟨bl', rfl⟩ := this _ _ h
    exact ⟨⟨f + j, bl'⟩, by simp [withEnds, crs, List.replicate_append_replicate]⟩

theorem stmts_returns {ss : List Stmt} {ls : List Bytes} (h : WithReturns (ss.flatMap Stmt.lines) ls) :
    ∃ ss' : List Stmt, ls = ss'.flatMap Stmt.lines ∧ ss'.map (fun s => { s with after := 0 }) = ss.map fun s => { s with after := 0 } := by
  induction ss generalizing ls with
  | nil => cases h; exact ⟨[], rfl, rfl⟩
  | cons s ss ih =>
    obtain ⟨c1, c2, rfl, h1, h2⟩ := withReturns_append h
    obtain ⟨k', rfl⟩ := ends_returns h1
    obtain ⟨ss', rfl, e⟩ := ih h2
    exact ⟨{ s with after := k' } :: ss', rfl, by simp [e]⟩

/-- The section without its line ends. -/
def Part.bare : Part → Part
  | .plain s => .plain { s with after := 0, stmts := s.stmts.map fun x => { x with after := 0 }, endAfter := 0 }
  | .collate c => .collate { c with after := 0, startAfter := 0, names := c.names.map fun x => (x.1, 0), orderAfter := 0, endAfter := 0 }

theorem part_returns {p : Part} {ls : List Bytes} (h : WithReturns p.lines ls) : ∃ p' : Part, ls = p'.lines ∧ p'.bare = p.bare := by
  cases p with
  | plain s =>
    obtain ⟨c1, c2, rfl, h1, h2⟩ := withReturns_append h
    obtain ⟨c3, c4, rfl, h3, h4⟩ := withReturns_append h2
    obtain ⟨k1, rfl⟩ := ends_returns h1
    obtain ⟨k2, rfl⟩ := ends_returns h4
    obtain ⟨ss', rfl, e⟩ := stmts_returns h3
    exact ⟨.plain { s with after := k1, stmts := ss', endAfter := k2 }, rfl, by simp [Part.bare, e]⟩
  | collate c =>
    obtain ⟨c1, c2, rfl, h1, h2⟩ := withReturns_append h
    obtain ⟨c3, c4, rfl, h3, h4⟩ := withReturns_append h2
    obtain ⟨c5, c6, rfl, h5, h6⟩ := withReturns_append h4
    obtain ⟨c7, c8, rfl, h7, h8⟩ := withReturns_append h6
    obtain ⟨k1, rfl⟩ := ends_returns h1
    obtain ⟨k2, rfl⟩ := ends_returns h3
    obtain ⟨k3, rfl⟩ := ends_returns h7
    obtain ⟨k4, rfl⟩ := ends_returns h8
    have names : ∀ (ns : List (Bytes × Ends)) ls, WithReturns (ns.flatMap fun x => withEnds (charText x.1) x.2) ls →
        ∃ ns' : List (Bytes × Ends), ls = (ns'.flatMap fun x => withEnds (charText x.1) x.2) ∧ ns'.map (·.1) = ns.map (·.1) := by
      intro ns
      induction ns with
      | nil => intro ls h; cases h; exact ⟨[], rfl, rfl⟩
      | cons n ns ih =>
        intro ls h
        obtain ⟨d1, d2, rfl, g1, g2⟩ := withReturns_append h
        obtain ⟨k', rfl⟩ := ends_returns g1
        obtain ⟨ns', rfl, e⟩ := ih _ g2
        exact ⟨(n.1, k') :: ns', rfl, by simp [e]⟩
    obtain ⟨ns', rfl, e⟩ := names _ _ h5
    refine ⟨.collate { c with after := k1, startAfter := k2, names := ns', orderAfter := k3, endAfter := k4 }, rfl, ?_⟩
    have e' : ns'.map (fun x => (x.1, (0 : Ends))) = c.names.map fun x => (x.1, (0 : Ends)) := by
      have := congrArg (List.map fun x => (x, (0 : Ends))) e
      simpa [List.map_map, Function.comp_def] using this
    simp [Part.bare, e']

theorem parts_returns {f : List Part} {ls : List Bytes} (h : WithReturns (f.flatMap Part.lines) ls) :
    ∃ f' : List Part, ls = f'.flatMap Part.lines ∧ f'.map Part.bare = f.map Part.bare := by
  induction f generalizing ls with
  | nil => cases h; exact ⟨[], rfl, rfl⟩
  | cons p f ih =>
    obtain ⟨c1, c2, rfl, h1, h2⟩ := withReturns_append h
    obtain ⟨p', rfl, e1⟩ := part_returns h1
    obtain ⟨f', rfl, e2⟩ := ih h2
    exact ⟨p' :: f', rfl, by simp [e1, e2]⟩

/-! ## The line ends mean nothing -/

theorem bare_wf (p : Part) : p.bare.WF ↔ p.WF := by
  cases p with
  | plain s => simp [Part.bare, Part.WF, Section.WF, Stmt.WF]
  | collate c =>
    have : (∀ x ∈ (c.names.map fun x => (x.1, (0 : Ends))), ∀ b ∈ x.1, b ∈ nameChars) ↔ ∀ x ∈ c.names, ∀ b ∈ x.1, b ∈ nameChars := by
      constructor
      · intro h x hx
        exact h (x.1, 0) (List.mem_map.mpr ⟨x, hx, rfl⟩)
      · intro h x hx
        obtain ⟨y, hy, rfl⟩ := List.mem_map.mp hx
        exact h y hy
    simp only [Part.bare, Part.WF, Collate.WF, this]

theorem bare_accepted (p : Part) : p.bare.Accepted ↔ p.Accepted := by
  cases p with
  | plain s => simp [Part.bare, Part.Accepted, Section.Accepted]
  | collate c => simp [Part.bare, Part.Accepted]

theorem bare_defines (p : Part) (d : Def) : p.bare.defines d = p.defines d := by
  cases p with
  | plain s =>
    simp only [Part.bare, Part.defines, Section.defines, List.foldl_map]
    rfl
  | collate c => rfl

theorem defines_bare (f f' : List Part) (h : f'.map Part.bare = f.map Part.bare) (d : Def) :
    f'.foldl Part.defines d = f.foldl Part.defines d := by
  have : ∀ g : List Part, g.foldl Part.defines d = (g.map Part.bare).foldl Part.defines d := by
    intro g
    simp only [List.foldl_map, bare_defines]
  rw [this f', this f, h]

/-- **C134** (what holds of it) Carriage returns at the ends of lines, of comments and blank lines too, change nothing: the
file gives what it gives without them. What is missing: continued lines. -/
theorem C134_returns_partial (f : List Part) (hne : f ≠ []) (hf : ∀ p ∈ f, p.WF) (ha : ∀ p ∈ f, p.Accepted)
    (lines : List Bytes) (hc : ∀ l ∈ lines, isComment l = true → PlainLine l)
    (hl : lines.filter (fun l => !isComment l) = f.flatMap Part.lines) (lines' : List Bytes) (hr : WithReturns lines lines')
    (handler : Bool) (d : Def) :
    ∃ N, ∀ n, N ≤ n → ∃ toks l toks' l', newLexer n (unlines lines) = .ok toks l ∧ newLexer n (unlines lines') = .ok toks' l' ∧
      parse handler toks d = .ok (0, f.foldl Part.defines d) ∧ parse handler toks' d = .ok (0, f.foldl Part.defines d) := by
  obtain ⟨N1, h1⟩ := C78_collate f hne hf ha lines hc hl handler d
  have hr' := withReturns_filter hr
  rw [hl] at hr'
  obtain ⟨f', e1, e2⟩ := parts_returns hr'
  have mem : ∀ p ∈ f', ∃ q ∈ f, q.bare = p.bare := by
    intro p hp
    have : p.bare ∈ f.map Part.bare := by rw [← e2]; exact List.mem_map.mpr ⟨p, hp, rfl⟩
    obtain ⟨q, hq, e⟩ := List.mem_map.mp this
    exact ⟨q, hq, e⟩
  obtain ⟨N2, h2⟩ := C78_collate f' (by
      rintro rfl
      exact hne (List.map_eq_nil_iff.mp e2.symm)) (by
      intro p hp
      obtain ⟨q, hq, e⟩ := mem p hp
      rw [← bare_wf, ← e, bare_wf]
      exact hf q hq) (by
      intro p hp
      obtain ⟨q, hq, e⟩ := mem p hp
      rw [← bare_accepted, ← e, bare_accepted]
      exact ha q hq) lines' (by
      intro l' hl' hcl
      obtain ⟨l, hm, j, rfl⟩ := withReturns_mem hr l' hl'
      rw [comment_returns] at hcl
      exact plain_returns (hc l hm hcl) j) e1 handler d
  refine ⟨max N1 N2, fun n hn => ?_⟩
  obtain ⟨t1, l1, a1, b1⟩ := h1 n (by omega)
  obtain ⟨t2, l2, a2, b2⟩ := h2 n (by omega)
  exact ⟨t1, l1, t2, l2, a1, a2, b1, by rw [b2, defines_bare f f' e2]⟩

theorem dosText_unlines (lines : List Bytes) : dosText lines = unlines (lines.map (· ++ [13])) := by
  induction lines with
  | nil => rfl
  | cons l ls ih =>
    unfold dosText at ih ⊢
    rw [List.flatMap_cons, ih]
    simp [unlines, nl]

theorem withReturns_dos (lines : List Bytes) : WithReturns lines (lines.map (· ++ [13])) := by
  induction lines with
  | nil => exact .nil
  | cons l ls ih => exact .cons l 1 ih

/-- **C134** (what holds of it) A file from DOS. -/
theorem C134_dos_partial (f : List Part) (hne : f ≠ []) (hf : ∀ p ∈ f, p.WF) (ha : ∀ p ∈ f, p.Accepted)
    (lines : List Bytes) (hc : ∀ l ∈ lines, isComment l = true → PlainLine l)
    (hl : lines.filter (fun l => !isComment l) = f.flatMap Part.lines) (handler : Bool) (d : Def) :
    ∃ N, ∀ n, N ≤ n → ∃ toks l, newLexer n (dosText lines) = .ok toks l ∧
      parse handler toks d = .ok (0, f.foldl Part.defines d) := by
  obtain ⟨N, h⟩ := C134_returns_partial f hne hf ha lines hc hl _ (withReturns_dos lines) handler d
  refine ⟨N, fun n hn => ?_⟩
  obtain ⟨_, _, t, l, -, a, -, b⟩ := h n hn
  rw [dosText_unlines]
  exact ⟨t, l, a, b⟩

/-! ## Continued lines -/

/-- **C134**, refuted: a value that is continued on the next line is a mistake in a file from DOS, for every keyword, after
any correct sections and statements, and whatever follows. -/
theorem C134_continued (f : List Section) (hf : ∀ s ∈ f, s.WF) (c : Cat) (k : Ends) (ss : List Stmt) (hs : ∀ s ∈ ss, s.WF c)
    (lead word gap : Bytes) (g : Grab) (h1 : Blank lead) (h2 : (word, g) ∈ c.keywords) (h3 : Blank gap) (h4 : gap ≠ [])
    (line : Bytes) (hline : line = lead ++ (word ++ (gap ++ [92, 13]))) (more lines : List Bytes)
    (hc : ∀ l ∈ lines, isComment l = true ∨ l ∈ more → PlainLine l)
    (hl : lines.filter (fun l => !isComment l) = fileLines f ++ (openLines c k ss ++ line :: more)) :
    ∃ N, ∀ n, N ≤ n → ∃ p, newLexer n (unlines lines) = .panic p := by
  obtain ⟨m1, -, m3, -⟩ := keyword_mem h2
  have key : ∀ c : Cat, (c.keywords.all fun e => !(b!"comment_char".isPrefixOf e.1) && !(b!"escape_char".isPrefixOf e.1)) = true := by
    intro c; cases c <;> decide +kernel
  have hp := List.all_eq_true.mp (key c) _ h2
  simp only [Bool.and_eq_true, Bool.not_eq_true', ← Bool.not_eq_true, List.isPrefixOf_iff_prefix] at hp
  have hpl := (worded_plain h1 m1 m3 h3 h4 (rest := [92, 13]) (by decide) ⟨[92], 13, rfl, by decide, by decide⟩ hp.1 hp.2).1
  have e : unlines (line :: more) ++ [nl] = lead ++ (word ++ (gap ++ 92 :: (13 :: nl :: unlines more ++ [nl]))) := by
    simp [hline, unlines]
  refine C119_crash f hf c k ss hs line more ?_ ?_ lines ?_ hl
  · rw [e]
    exact .value h1 h2 h3 h4 ⟨by decide, by decide⟩ (.start (by decide) (by cases g <;> decide))
  · rw [e]
    exact lead_stops h1 (lettered_of_word m1 m3).append
  · intro l hm hq
    rcases hq with hq | hq
    · exact hc l hm (.inl hq)
    · rcases List.mem_cons.mp hq with rfl | hq
      · rw [hline]; exact hpl
      · exact hc l hm (.inr hq)

/-- What continues on the next line, with and without carriage returns. -/
def continuedFile : List Section := [{ cat := .monetary, stmts := [{ word := b!"mon_grouping", val := .ints [3] }] }]

example : ∃ N, ∀ n, N ≤ n → ∃ l, newLexer n b!"LC_MONETARY\nmon_grouping \\\n3\nEND LC_MONETARY" = .ok (continuedFile.flatMap Section.toks) l :=
  file_whole continuedFile (by
    intro s hs
    simp only [continuedFile, List.mem_cons, List.not_mem_nil, or_false] at hs
    subst hs
    refine ⟨?_, by decide, by decide, by decide, by decide⟩
    intro x hx
    simp only [List.mem_cons, List.not_mem_nil, or_false] at hx
    subst hx
    exact ⟨by decide, by decide, by decide, by decide, by simp [Val.WF]⟩) [] foreign_nil _ (by decide +kernel)

example : ∃ N, ∀ n, N ≤ n → ∃ p, newLexer n b!"LC_MONETARY\r\nmon_grouping \\\r\n3\r\nEND LC_MONETARY\r\n" = .panic p :=
  C134_continued [] (by simp) .monetary ⟨1, []⟩ [] (by simp) [] b!"mon_grouping" b!" " .intList (by decide) (by decide) (by decide) (by decide)
    _ rfl [b!"3\r", b!"END LC_MONETARY\r"] [b!"LC_MONETARY\r", b!"mon_grouping \\\r", b!"3\r", b!"END LC_MONETARY\r"] (by
      intro l hl hc
      have key : ∀ y : Bytes, y ∈ [b!"3\r", b!"END LC_MONETARY\r"] → PlainLine y := by
        intro y hy
        simp only [List.mem_cons, List.not_mem_nil, or_false] at hy
        rcases hy with rfl | rfl
        · exact ⟨by decide, by decide, by decide, .inr (Solid.ends ⟨b!"3", 13, rfl, by decide, by decide⟩)⟩
        · exact ⟨by decide, by decide, by decide, .inr (Solid.ends ⟨b!"END LC_MONETARY", 13, rfl, by decide, by decide⟩)⟩
      rcases hc with hc | hc
      · simp only [List.mem_cons, List.not_mem_nil, or_false] at hl
        rcases hl with rfl | rfl | rfl | rfl <;> exact absurd hc (by decide)
      · exact key l hc) (by decide +kernel)

/-- The hypotheses of `C134_dos_partial` are met: a file with a comment and a blank line. -/
example : ∃ N, ∀ n, N ≤ n → ∃ toks l,
    newLexer n (b!"LC_COLLATE\r\n order_start forward\r\n#x\r\n<a>\r\n<LOW-VALUE>\r\n\r\norder_end\r\nEND LC_COLLATE\r\n" ++
      b!"LC_MONETARY\r\nmon_grouping 3\r\nEND LC_MONETARY\r\n") = .ok toks l ∧
    parse false toks {} = .ok (0, { monGrouping := [3] }) := by
  refine C134_dos_partial sampleParts (by simp [sampleParts]) ?_ ?_
    [b!"LC_COLLATE", b!" order_start forward", b!"#x", b!"<a>", b!"<LOW-VALUE>", [], b!"order_end", b!"END LC_COLLATE",
      b!"LC_MONETARY", b!"mon_grouping 3", b!"END LC_MONETARY"] ?_ (by decide +kernel) false {}
  · intro p hp
    simp only [sampleParts, List.mem_cons, List.not_mem_nil, or_false] at hp
    rcases hp with rfl | rfl
    · exact ⟨by decide, by decide, by decide, by decide, by decide, by decide, by decide, by decide⟩
    · refine ⟨?_, by decide, by decide, by decide, by decide⟩
      intro x hx
      simp only [List.mem_cons, List.not_mem_nil, or_false] at hx
      subst hx
      exact ⟨by decide, by decide, by decide, by decide, by simp [Val.WF]⟩
  · intro p hp
    simp only [sampleParts, List.mem_cons, List.not_mem_nil, or_false] at hp
    rcases hp with rfl | rfl
    · exact List.cons_ne_nil _ _
    · refine ⟨by simp, ?_⟩
      intro x hx
      simp only [List.mem_cons, List.not_mem_nil, or_false] at hx
      subst hx
      refine ⟨by decide, ?_⟩
      intro i hi
      simp only [List.mem_cons, List.not_mem_nil, or_false] at hi
      subst hi
      unfold FitsInt; omega
  · intro l hl hc
    simp only [List.mem_cons, List.not_mem_nil, or_false] at hl
    rcases hl with rfl | rfl | rfl | rfl | rfl | rfl | rfl | rfl | rfl | rfl | rfl <;> try (cases hc; done)
    exact ⟨by decide, by decide, by decide, .inr (Solid.ends ⟨b!"#", 120, rfl, by decide, by decide⟩)⟩

end Locale
