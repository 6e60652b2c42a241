import Verif.Locale.Remains

/-! # C156: how a locale file is arranged -/

namespace Locale
open Go

/-! ## Specification -/

/-- What a file says: its keywords with their values, in order, without the blanks, the blank lines, the comments and the sections they are in. -/
def sayings (f : List Part) : List (Bytes × Val) := (f.flatMap Part.stmts).map fun s => (s.word, s.val)

/-- What a file says about one keyword. -/
def saysOf (f : List Part) (w : Bytes) : List Val := ((sayings f).filter fun x => x.1 = w).map (·.2)

/-- Two texts are both accepted by `NewLexer` and `yyParse`, and define the same. -/
def SameMeaning (handler : Bool) (x y : Bytes) (d : Def) : Prop :=
  ∃ N, ∀ n, N ≤ n → ∃ toks l toks' l' d', newLexer n x = .ok toks l ∧ parse handler toks d = .ok (0, d') ∧
    newLexer n y = .ok toks' l' ∧ parse handler toks' d = .ok (0, d')

/-! ## Proofs -/

theorem symbols_says (f : List Part) : symbols f = (saysOf f b!"int_curr_symbol").flatMap fun v =>
    match v with
    | .str r => [if r = [] then b!"\"\"" else ofRunes r]
    | _ => [] := by
  unfold symbols saysOf sayings
  generalize f.flatMap Part.stmts = ss
  induction ss with
  | nil => rfl
  | cons s ss ih =>
    rw [List.flatMap_cons, ih, List.map_cons, List.filter_cons]
    by_cases h : s.word = b!"int_curr_symbol"
    · simp only [h, decide_true, if_true, List.map_cons, List.flatMap_cons]
      congr 1
      unfold Stmt.symbols
      cases s.val <;> simp [h]
    · simp only [h, decide_false, Bool.false_eq_true, if_false]
      unfold Stmt.symbols
      cases s.val <;> simp [h]

theorem groupings_says (f : List Part) : groupings f = (saysOf f b!"mon_grouping").flatMap fun v =>
    match v with
    | .ints is => [is]
    | _ => [] := by
  unfold groupings saysOf sayings
  generalize f.flatMap Part.stmts = ss
  induction ss with
  | nil => rfl
  | cons s ss ih =>
    rw [List.flatMap_cons, ih, List.map_cons, List.filter_cons]
    by_cases h : s.word = b!"mon_grouping"
    · simp only [h, decide_true, if_true, List.map_cons, List.flatMap_cons]
      congr 1
      unfold Stmt.groupings
      cases s.val <;> simp [h]
    · simp only [h, decide_false, Bool.false_eq_true, if_false]
      unfold Stmt.groupings
      cases s.val <;> simp [h]

/-- **C156** Two files that say the same about each keyword, in the same order if there is more than one statement for it, define the same: blanks, blank
lines, comments, the order of the sections and of the statements, and how they are distributed over sections make no difference. -/
theorem C156_same_statements (handler : Bool) {f g : List Part} {lines lines' : List Bytes} (hf : IsFile f lines) (hg : IsFile g lines')
    (h : ∀ w, saysOf f w = saysOf g w) (d : Def) : SameMeaning handler (unlines lines) (unlines lines') d := by
  obtain ⟨N1, h1⟩ := C78_collate f hf.ne hf.wf hf.acc lines hf.comments hf.lines_ handler d
  obtain ⟨N2, h2⟩ := C78_collate g hg.ne hg.wf hg.acc lines' hg.comments hg.lines_ handler d
  refine ⟨max N1 N2, fun n hn => ?_⟩
  obtain ⟨toks, l, a1, a2⟩ := h1 n (by omega)
  obtain ⟨toks', l', b1, b2⟩ := h2 n (by omega)
  refine ⟨toks, l, toks', l', f.foldl Part.defines d, a1, a2, b1, ?_⟩
  rw [b2, parts_defines, parts_defines, symbols_says, symbols_says, groupings_says, groupings_says, h, h]

theorem perm_short {α : Type} {xs ys : List α} (h : xs.Perm ys) (hl : xs.length ≤ 1) : xs = ys := by
  match xs, hl with
  | [], _ => exact (List.nil_perm.1 h).symm
  | [x], _ => exact List.singleton_perm.1 h

theorem nodup_filter_short {α β : Type} [DecidableEq α] {xs : List (α × β)} (h : (xs.map (·.1)).Nodup) (w : α) : (xs.filter fun x => x.1 = w).length ≤ 1 := by
  induction xs with
  | nil => simp
  | cons x xs ih =>
    rw [List.map_cons, List.nodup_cons] at h
    rw [List.filter_cons]
    split
    · next hx =>
      have hx : x.1 = w := by simpa using hx
      have : (xs.filter fun x => x.1 = w) = [] := by
        rw [List.filter_eq_nil_iff]
        intro y hy hyw
        have hyw : y.1 = w := by simpa using hyw
        exact h.1 (List.mem_map.2 ⟨y, hy, by rw [hyw, hx]⟩)
      rw [this]; simp
    · exact ih h.2

/-- **C156** In particular the sections of a file, and the statements in them, can be written in any order as long as no keyword comes twice. -/
theorem C156_any_order (handler : Bool) {f g : List Part} {lines lines' : List Bytes} (hf : IsFile f lines) (hg : IsFile g lines')
    (hp : (sayings f).Perm (sayings g)) (hn : ((sayings f).map (·.1)).Nodup) (d : Def) : SameMeaning handler (unlines lines) (unlines lines') d := by
  refine C156_same_statements handler hf hg (fun w => ?_) d
  unfold saysOf
  rw [perm_short (hp.filter _) (nodup_filter_short hn w)]

/-- **C156** Moving whole sections: a special case. -/
theorem C156_sections_moved (handler : Bool) {f g : List Part} {lines lines' : List Bytes} (hf : IsFile f lines) (hg : IsFile g lines')
    (hp : f.Perm g) (hn : ((sayings f).map (·.1)).Nodup) (d : Def) : SameMeaning handler (unlines lines) (unlines lines') d :=
  C156_any_order handler hf hg ((hp.flatMap_right _).map _) hn d

/-- A file with two groupings. -/
def twoGroupings (a b : Int) : List Part := [.plain { cat := .monetary, stmts := [{ word := b!"mon_grouping", val := .ints [a] }, { word := b!"mon_grouping", val := .ints [b] }] }]

theorem twoGroupings_ok {a b : Int} (ha : FitsInt a) (hb : FitsInt b) (lines : List Bytes) (hc : ∀ l ∈ lines, isComment l = true → PlainLine l)
    (hl : lines.filter (fun l => !isComment l) = (twoGroupings a b).flatMap Part.lines) : IsFile (twoGroupings a b) lines := by
  refine ⟨by simp [twoGroupings], ?_, ?_, hc, hl⟩
  · intro p hp
    simp only [twoGroupings, List.mem_cons, List.not_mem_nil, or_false] at hp
    subst hp
    refine ⟨?_, by dsimp only; decide, by dsimp only; decide, by dsimp only; decide, by dsimp only; decide⟩
    intro x hx
    simp only [List.mem_cons, List.not_mem_nil, or_false] at hx
    rcases hx with rfl | rfl <;> exact ⟨by dsimp only; decide, by simp only [Val.grab]; decide, by dsimp only; decide, by dsimp only; decide, by simp [Val.WF]⟩
  · intro p hp
    simp only [twoGroupings, List.mem_cons, List.not_mem_nil, or_false] at hp
    subst hp
    refine ⟨by simp, ?_⟩
    intro x hx
    simp only [List.mem_cons, List.not_mem_nil, or_false] at hx
    rcases hx with rfl | rfl
    · refine ⟨by dsimp only; decide, fun i hi => ?_⟩
      simp only [List.mem_cons, List.not_mem_nil, or_false] at hi
      exact hi ▸ ha
    · refine ⟨by dsimp only; decide, fun i hi => ?_⟩
      simp only [List.mem_cons, List.not_mem_nil, or_false] at hi
      exact hi ▸ hb

/-- **C156** The order of two statements for one keyword does matter. -/
theorem C156_same_keyword (handler : Bool) (d : Def) :
    ¬ SameMeaning handler b!"LC_MONETARY\nmon_grouping 3\nmon_grouping 4\nEND LC_MONETARY\n" b!"LC_MONETARY\nmon_grouping 4\nmon_grouping 3\nEND LC_MONETARY\n" d := by
  rintro ⟨N, hN⟩
  have k1 := twoGroupings_ok (a := 3) (b := 4) (by unfold FitsInt; omega) (by unfold FitsInt; omega)
    [b!"LC_MONETARY", b!"mon_grouping 3", b!"mon_grouping 4", b!"END LC_MONETARY"] (no_comments _ (by decide)) (by decide +kernel)
  have k2 := twoGroupings_ok (a := 4) (b := 3) (by unfold FitsInt; omega) (by unfold FitsInt; omega)
    [b!"LC_MONETARY", b!"mon_grouping 4", b!"mon_grouping 3", b!"END LC_MONETARY"] (no_comments _ (by decide)) (by decide +kernel)
  obtain ⟨N1, h1⟩ := C78_collate _ k1.ne k1.wf k1.acc _ k1.comments k1.lines_ handler d
  obtain ⟨N2, h2⟩ := C78_collate _ k2.ne k2.wf k2.acc _ k2.comments k2.lines_ handler d
  obtain ⟨toks, l, toks', l', d', a1, a2, b1, b2⟩ := hN (max N (max N1 N2)) (by omega)
  obtain ⟨t1, l1, c1, c2⟩ := h1 (max N (max N1 N2)) (by omega)
  obtain ⟨t2, l2, e1, e2⟩ := h2 (max N (max N1 N2)) (by omega)
  rw [show unlines [b!"LC_MONETARY", b!"mon_grouping 3", b!"mon_grouping 4", b!"END LC_MONETARY"] =
    b!"LC_MONETARY\nmon_grouping 3\nmon_grouping 4\nEND LC_MONETARY\n" by decide +kernel, a1] at c1
  rw [show unlines [b!"LC_MONETARY", b!"mon_grouping 4", b!"mon_grouping 3", b!"END LC_MONETARY"] =
    b!"LC_MONETARY\nmon_grouping 4\nmon_grouping 3\nEND LC_MONETARY\n" by decide +kernel, b1] at e1
  cases c1
  cases e1
  rw [a2] at c2
  rw [b2] at e2
  have x1 : d' = (twoGroupings 3 4).foldl Part.defines d := by injection c2 with h; injection h
  have x2 : d' = (twoGroupings 4 3).foldl Part.defines d := by injection e2 with h; injection h
  have y1 : d'.monGrouping = [4] := by rw [x1]; rfl
  have y2 : d'.monGrouping = [3] := by rw [x2]; rfl
  rw [y1] at y2
  revert y2
  decide

/-- The hypotheses of `C156_sections_moved` and `C156_any_order` are met: two files with one section each, put together in both orders. -/
example : (euroFile ++ groupFile).Perm (groupFile ++ euroFile) ∧ ((sayings (euroFile ++ groupFile)).map (·.1)).Nodup ∧
    IsFile (euroFile ++ groupFile) ([b!"LC_MONETARY", b!"int_curr_symbol \"EUR\"", b!"int_frac_digits 2", b!"END LC_MONETARY"] ++
      [b!"LC_MONETARY", b!"mon_grouping 3", b!"END LC_MONETARY"]) := by
  refine ⟨List.perm_append_comm, by decide +kernel, ?_⟩
  have a := euroFile_ok
  have b := groupFile_ok
  refine ⟨by simp [euroFile], ?_, ?_, ?_, by rw [List.filter_append, a.lines_, b.lines_, List.flatMap_append]⟩
  · intro p hp; rcases List.mem_append.1 hp with h | h; exact a.wf p h; exact b.wf p h
  · intro p hp; rcases List.mem_append.1 hp with h | h; exact a.acc p h; exact b.acc p h
  · intro p hp; rcases List.mem_append.1 hp with h | h; exact a.comments p h; exact b.comments p h

end Locale
