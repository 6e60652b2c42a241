import Verif.Ed.TypedProps

/-!
# Typed sessions from the characters on (C84)

Scanner, grouping, parser and channel for the command lines of `Verif.Ed.Typed`.
-/

namespace Ed
open Go

/-! ## Grouping -/

theorem blanks_isS {w : Bytes} (h : Blanks w) : ∀ c ∈ w, isS c = true := by
  intro c hc
  rcases h c hc with rfl | rfl <;> decide

theorem noSearch_isA {a : AddrSyn} (ha : a.OK) (hn : a.NoSearch) : ∀ c ∈ a.bytes, isA c = true := by
  intro c hc
  cases a with
  | lit ds => simp only [isA, ha.2 c hc, Bool.true_or]
  | dot => simp [AddrSyn.bytes] at hc; subst hc; decide
  | dollar => simp [AddrSyn.bytes] at hc; subst hc; decide
  | re | mark | back | off => exact hn.elim

/-- Address parts without searches, followed by one of the three letters, start a text block. -/
theorem start_range {r : RangeSyn} (hr : r.OK) (hd : r.Direct) (c : UInt8) (hc : c = 97 ∨ c = 105 ∨ c = 99) :
    isStart (r.bytes ++ [c]) = true := by
  have k1 : letterK (starK isS List.isEmpty) [c] = true := by rcases hc with rfl | rfl | rfl <;> decide
  have skip0 : ∀ {p k l}, k l = true → starK p k l = true := fun {p k l} h => starK_skip (p := p) (k := k) [] l (by simp) h
  have noComma : ∀ {k l}, k l = true → optComma k l = true := by
    intro k l h
    cases l with
    | nil => exact h
    | cons d ds => simp only [optComma, h, Bool.or_true]
  have comma : ∀ {k : Bytes → Bool} {l}, k l = true → optComma k (44 :: l) = true := by
    intro k l h
    simp [optComma, h]
  cases r with
  | none => exact skip0 (skip0 (skip0 (noComma (skip0 (skip0 (skip0 k1))))))
  | one a w =>
    simp only [RangeSyn.bytes, List.append_assoc]
    exact skip0 (starK_skip _ _ (noSearch_isA hr.1 hd) (starK_skip _ _ (blanks_isS hr.2) (noComma (skip0 (skip0 (skip0 k1))))))
  | both semi a w1 w2 b w3 =>
    obtain ⟨rfl, ha, hb⟩ := hd
    obtain ⟨oa, ob, b1, b2, b3⟩ := hr
    simp only [RangeSyn.bytes, List.append_assoc, List.cons_append, sepByte]
    exact skip0 (starK_skip _ _ (noSearch_isA oa ha) (starK_skip _ _ (blanks_isS b1) (comma (starK_skip _ _ (blanks_isS b2)
      (starK_skip _ _ (noSearch_isA ob hb) (starK_skip _ _ (blanks_isS b3) k1))))))
  | startOnly semi a w =>
    obtain ⟨rfl, ha⟩ := hd
    simp only [RangeSyn.bytes, List.append_assoc, List.cons_append, List.nil_append, sepByte]
    exact skip0 (starK_skip _ _ (noSearch_isA hr.1 ha) (starK_skip _ _ (blanks_isS hr.2) (comma (skip0 (skip0 (skip0 k1))))))
  | endOnly semi w1 b w2 =>
    obtain ⟨rfl, hb⟩ := hd
    obtain ⟨ob, b1, b2⟩ := hr
    simp only [RangeSyn.bytes, List.append_assoc, List.cons_append, sepByte]
    exact skip0 (skip0 (skip0 (comma (starK_skip _ _ (blanks_isS b1) (starK_skip _ _ (noSearch_isA ob hb) (starK_skip _ _ (blanks_isS b2) k1))))))
  | all semi =>
    cases hd
    exact skip0 (skip0 (skip0 (comma (skip0 (skip0 (skip0 k1))))))

/-- The last byte that is no space. -/
theorem not_start_spaces {x : Bytes} {c : UInt8} {w : Bytes} (h1 : isS c = false) (h2 : c ≠ 97 ∧ c ≠ 105 ∧ c ≠ 99) (hw : ∀ d ∈ w, isS d = true) :
    isStart (x ++ [c] ++ w) = false := by
  have last : ∀ (y : Bytes) (d : UInt8) (v : Bytes), isS d = false → (∀ e ∈ v, isS e = true) →
      ((y ++ d :: v).reverse.dropWhile isS).head? = some d := by
    intro y d v hd hv
    have : (y ++ d :: v).reverse = v.reverse ++ d :: y.reverse := by simp
    rw [this, List.dropWhile_append_of_pos (by simpa using hv)]
    simp [List.dropWhile_cons, hd]
  cases h : isStart (x ++ [c] ++ w) with
  | false => rfl
  | true =>
    obtain ⟨y, d, v, e, hd, hv⟩ := isStart_ends _ h
    exfalso
    have hs : isS d = false := by rcases hd with rfl | rfl | rfl <;> decide
    have e1 := last y d v hs hv
    have e2 := last x c w h1 hw
    rw [← e] at e1
    rw [show x ++ [c] ++ w = x ++ c :: w by simp, e2] at e1
    cases e1
    rcases hd with hd | hd | hd
    · exact h2.1 hd
    · exact h2.2.1 hd
    · exact h2.2.2 hd

theorem quote_not_start (x : Bytes) : isStart (39 :: x) = false := by
  simp [isStart, starK, optComma, letterK, isS, isA, isDigit]

theorem null_not_start {r : RangeSyn} (hr : r.OK) (hs : r.Simple) : isStart r.bytes = false := by
  have digit : ∀ c, isDigit c = true → isS c = false ∧ c ≠ 97 ∧ c ≠ 105 ∧ c ≠ 99 := by
    intro c this
    refine ⟨?_, ?_, ?_, ?_⟩
    · cases h : isS c with
      | false => rfl
      | true =>
        simp only [isS, Bool.or_eq_true, beq_iff_eq] at h
        rcases h with (((rfl | rfl) | rfl) | rfl) | rfl <;> revert this <;> decide
    all_goals rintro rfl; revert this; decide
  have addr : ∀ a : AddrSyn, a.OK → (∀ c, a ≠ .mark c) → ∃ x c, a.bytes = x ++ [c] ∧ isS c = false ∧ c ≠ 97 ∧ c ≠ 105 ∧ c ≠ 99 := by
    intro a ha hm
    cases a with
    | lit ds =>
      obtain ⟨hne, hds⟩ := ha
      rcases List.eq_nil_or_concat ds with rfl | ⟨x, c, rfl⟩
      · exact absurd rfl hne
      · exact ⟨x, c, by simp [AddrSyn.bytes], digit c (hds c (by simp))⟩
    | mark c => exact absurd rfl (hm c)
    | back body => exact ⟨63 :: body, 63, by simp [AddrSyn.bytes], by decide, by decide, by decide, by decide⟩
    | off a m ds =>
      rcases List.eq_nil_or_concat ds with rfl | ⟨x, c, rfl⟩
      · exact ⟨a.bytes, signByte m, rfl, by cases m <;> decide, by cases m <;> decide, by cases m <;> decide, by cases m <;> decide⟩
      · exact ⟨a.bytes ++ signByte m :: x, c, by simp [AddrSyn.bytes], digit c (ha.2.2 c (by simp))⟩
    | dot => exact ⟨[], 46, rfl, by decide, by decide, by decide, by decide⟩
    | dollar => exact ⟨[], 36, rfl, by decide, by decide, by decide, by decide⟩
    | re body => exact ⟨47 :: body, 47, by simp [AddrSyn.bytes], by decide, by decide, by decide, by decide⟩
  cases r with
  | none => decide
  | one a w =>
    by_cases hm : ∃ c, a = .mark c
    · obtain ⟨c, rfl⟩ := hm
      exact quote_not_start _
    · obtain ⟨x, c, e, h1, h2⟩ := addr a hr.1 (fun c h => hm ⟨c, h⟩)
      simp only [RangeSyn.bytes, e]
      exact not_start_spaces h1 h2 (blanks_isS hr.2)
  | both semi a w1 w2 b w3 => exact hs.elim
  | startOnly semi a w => exact hs.elim
  | endOnly semi w1 b w2 => exact hs.elim
  | all semi => exact hs.elim

/-! ## Parsing -/

/-- The text handed to the parser, without the newline. -/
def TCmd.text1 (c : TCmd) : Bytes := join [nl] c.typed

theorem parse_tcmd (c : TCmd) (h : c.WF) : parseCommands (c.text1 ++ [nl]) = some [c.parsed] := by
  have e : (nl : UInt8) = 10 := rfl
  obtain ⟨r, v⟩ := c
  obtain ⟨hr, hw⟩ := h
  cases v with
  | print =>
    have := C67_range_commands [] [] blanks_nil blanks_nil r hr 112 .print (by decide)
    simpa [TCmd.text1, TCmd.typed, join, TCmd.parsed, e] using this
  | number =>
    have := C67_range_commands [] [] blanks_nil blanks_nil r hr 110 .number (by decide)
    simpa [TCmd.text1, TCmd.typed, join, TCmd.parsed, e] using this
  | delete =>
    have := C67_range_commands [] [] blanks_nil blanks_nil r hr 100 .delete (by decide)
    simpa [TCmd.text1, TCmd.typed, join, TCmd.parsed, e] using this
  | equals =>
    obtain ⟨hs, ht⟩ := hw
    have := C67_line_number [] [] blanks_nil blanks_nil r hr hs
    have e2 : ({ r.start with text := r.bytes } : Address) = r.start := by
      cases r with
      | none => rfl
      | one a w =>
        have : w = [] := ht
        subst this
        simp [RangeSyn.start, RangeSyn.bytes, AddrSyn.address]
      | both semi a w1 w2 b w3 => exact hs.elim
      | startOnly semi a w => exact hs.elim
      | endOnly semi w1 b w2 => exact hs.elim
      | all semi => exact hs.elim
    rw [e2] at this
    simpa [TCmd.text1, TCmd.typed, join, TCmd.parsed, e] using this
  | null =>
    have := C67_null [] blanks_nil r hr hw
    simpa [TCmd.text1, TCmd.typed, join, TCmd.parsed, e] using this
  | write =>
    have := (C67_write [] blanks_nil r hr).1
    simpa [TCmd.text1, TCmd.typed, join, TCmd.parsed, e] using this
  | append t =>
    obtain ⟨hs, hd, ht⟩ := hw
    have := (C68_append_insert [] blanks_nil r hr hs t ht.block).1
    simp only [TCmd.text1, TCmd.typed]
    rw [join_two _ t ht.block.ne]
    simpa [TCmd.parsed, e] using this
  | insert t =>
    obtain ⟨hs, hd, ht⟩ := hw
    have := (C68_append_insert [] blanks_nil r hr hs t ht.block).2
    simp only [TCmd.text1, TCmd.typed]
    rw [join_two _ t ht.block.ne]
    simpa [TCmd.parsed, e] using this
  | change t =>
    obtain ⟨hd, ht⟩ := hw
    have := C68_change [] blanks_nil r hr t ht.block
    simp only [TCmd.text1, TCmd.typed]
    rw [join_two _ t ht.block.ne]
    simpa [TCmd.parsed, e] using this
  | edit name =>
    have := C67_names [] b!" " blanks_nil (by simp [Blanks]) (by simp) name hw.2 101 .edit (by decide)
    simpa [TCmd.text1, TCmd.typed, join, TCmd.parsed, e] using this
  | unsupported l =>
    rcases hw with ⟨h0, hl⟩ | hl
    · have h0 : r = .none := h0
      subst h0
      have hb : (l, unsupportedTyp l) ∈ bareCommands := by
        simp at hl
        rcases hl with rfl | rfl | rfl | rfl | rfl <;> decide
      have := C67_bare [] [] blanks_nil blanks_nil l _ hb
      simpa [TCmd.text1, TCmd.typed, join, TCmd.parsed, e, RangeSyn.bytes, RangeSyn.start, RangeSyn.end_] using this
    · have hb : (l, unsupportedTyp l) ∈ rangeCommands := by
        simp at hl
        rcases hl with rfl | rfl <;> decide
      have := C67_range_commands [] [] blanks_nil blanks_nil r hr l _ hb
      simpa [TCmd.text1, TCmd.typed, join, TCmd.parsed, e] using this

theorem groups_tcmd (c : TCmd) (h : c.WF) (rest : List Bytes) : groups none (c.typed ++ rest) = c.text1 :: groups none rest := by
  obtain ⟨r, v⟩ := c
  obtain ⟨hr, hw⟩ := h
  have single : ∀ l : UInt8, isS l = false → (l ≠ 97 ∧ l ≠ 105 ∧ l ≠ 99) →
      groups none ((r.bytes ++ [l]) :: rest) = join [nl] [r.bytes ++ [l]] :: groups none rest := by
    intro l h1 h2
    rw [groups, if_neg (by rw [not_start h1 h2]; decide)]
    rfl
  cases v with
  | print => exact single 112 (by decide) (by decide)
  | number => exact single 110 (by decide) (by decide)
  | delete => exact single 100 (by decide) (by decide)
  | equals => exact single 61 (by decide) (by decide)
  | null =>
    simp only [TCmd.typed, TCmd.text1, List.cons_append, List.nil_append, join]
    rw [groups, if_neg (by rw [null_not_start hr hw]; decide)]
  | write => exact single 119 (by decide) (by decide)
  | append t =>
    obtain ⟨hs, hd, ht⟩ := hw
    simp only [TCmd.typed, TCmd.text1, List.cons_append, List.append_assoc]
    rw [groups, if_pos (start_range hr hd 97 (by simp))]
    simpa using groups_block t [r.bytes ++ b!"a"] rest ht.noTerm
  | insert t =>
    obtain ⟨hs, hd, ht⟩ := hw
    simp only [TCmd.typed, TCmd.text1, List.cons_append, List.append_assoc]
    rw [groups, if_pos (start_range hr hd 105 (by simp))]
    simpa using groups_block t [r.bytes ++ b!"i"] rest ht.noTerm
  | change t =>
    obtain ⟨hd, ht⟩ := hw
    simp only [TCmd.typed, TCmd.text1, List.cons_append, List.append_assoc]
    rw [groups, if_pos (start_range hr hd 99 (by simp))]
    simpa using groups_block t [r.bytes ++ b!"c"] rest ht.noTerm
  | edit name =>
    have hns : ¬ isStart (b!"e " ++ name) = true := by rw [edit_not_start]; decide
    show groups none ((b!"e " ++ name) :: rest) = join [nl] [b!"e " ++ name] :: groups none rest
    rw [groups, if_neg hns]
    rfl
  | unsupported l =>
    have hl : l ∈ b!"hHPQujl" := by
      rcases hw with ⟨-, h⟩ | h <;> simp at h ⊢ <;> grind
    simp at hl
    refine single l ?_ ?_ <;> rcases hl with rfl | rfl | rfl | rfl | rfl | rfl | rfl <;> decide

theorem groups_tcmds : ∀ (cs : List TCmd), (∀ c ∈ cs, c.WF) → ∀ rest,
    groups none (cs.flatMap TCmd.typed ++ rest) = cs.map TCmd.text1 ++ groups none rest := by
  intro cs
  induction cs with
  | nil => intro _ rest; rfl
  | cons c cs ih =>
    intro h rest
    rw [List.flatMap_cons, List.append_assoc, groups_tcmd c (h c (by simp)), ih (fun x hx => h x (by simp [hx]))]
    rfl

theorem events_tcmds (errText : Bytes → Bytes) : ∀ (cs : List TCmd), (∀ c ∈ cs, c.WF) →
    (cs.map TCmd.text1).flatMap (eventsOf errText) = (cs.map TCmd.parsed).flatMap evs := by
  intro cs
  induction cs with
  | nil => intro _; rfl
  | cons c cs ih =>
    intro h
    simp only [List.map_cons, List.flatMap_cons, ih (fun x hx => h x (by simp [hx]))]
    rw [eventsOf_some (parse_tcmd c (h c (by simp))), List.flatMap_cons, List.flatMap_nil, List.append_nil]

/-- How the script ends: with `q`, or with the end of the input. -/
def lastLine (quits : Bool) : List Bytes := if quits then [b!"q"] else []

/-- The command it becomes. -/
def lastCommand (quits : Bool) : List Command := if quits then [{ typ := .quit }] else []

/-- The reader's actions. -/
theorem program_tcmds (errText : Bytes → Bytes) (name : Bytes) (hn : NameOK name) (hnp : PlainLine (b!"e " ++ name)) (cs : List TCmd)
    (ht : ∀ c ∈ cs, c.WF) (hp : ∀ l ∈ cs.flatMap TCmd.typed, PlainLine l) (quits : Bool) :
    program errText (mainInput (some name) (unlines (cs.flatMap TCmd.typed ++ lastLine quits))) =
      ((({ typ := .edit, params := [name] } : Command) :: cs.map TCmd.parsed) ++ lastCommand quits).flatMap evs := by
  have e1 : mainInput (some name) (unlines (cs.flatMap TCmd.typed ++ lastLine quits)) =
      unlines ((b!"e " ++ name) :: (cs.flatMap TCmd.typed ++ lastLine quits)) := by simp [mainInput, unlines]
  have e2 : scanLines (unlines ((b!"e " ++ name) :: (cs.flatMap TCmd.typed ++ lastLine quits))) =
      ((b!"e " ++ name) :: (cs.flatMap TCmd.typed ++ lastLine quits), false) := by
    refine scanLines_unlines _ ?_
    intro l hl
    simp only [List.mem_cons, List.mem_append] at hl
    rcases hl with rfl | hl | hl
    · exact hnp
    · exact hp l hl
    · cases quits
      · cases hl
      · simp only [lastLine, if_true, List.mem_cons, List.not_mem_nil, or_false] at hl
        subst hl
        exact plain_ascii _ (by decide) (by decide) (by decide)
  have p1 : parseCommands (b!"e " ++ name ++ [nl]) = some [{ typ := .edit, params := [name] }] := by
    have := C67_names [] b!" " blanks_nil (by simp [Blanks]) (by simp) name hn 101 .edit (by decide)
    simpa using this
  have p3 : parseCommands (b!"q" ++ [nl]) = some [{ typ := .quit }] := by decide +kernel
  have v1 : eventsOf errText (b!"e " ++ name) = [.send { typ := .edit, params := [name] }] := by rw [eventsOf_some p1]; rfl
  have v3 : eventsOf errText b!"q" = [.send { typ := .quit }] := by rw [eventsOf_some p3]; rfl
  have g : groups none (lastLine quits) = lastLine quits := by cases quits <;> decide
  rw [program, e1, texts_short (by rw [e2]), e2]
  simp only
  rw [groups, if_neg (by rw [edit_not_start]; decide), groups_tcmds cs ht, g, List.flatMap_cons, List.flatMap_append, events_tcmds errText cs ht, v1]
  have w1 : evs { typ := .edit, params := [name] } = [.send { typ := .edit, params := [name] }] := rfl
  have w3 : evs { typ := .quit } = [.send { typ := .quit }] := rfl
  cases quits
  · simp [lastLine, lastCommand, scanError, w1]
  · simp [lastLine, lastCommand, scanError, v3, w1, w3]

/-! ## The whole session -/

theorem TCmd.parsed_not_quit (c : TCmd) (h : c.WF) : c.parsed.typ ≠ .quit := by
  obtain ⟨r, v⟩ := c
  cases v with
  | unsupported l => simp only [TCmd.parsed, unsupportedTyp]; repeat' split
                     all_goals simp
  | _ => simp [TCmd.parsed]

/-- The commands of a session, one after the other. -/
theorem session_refines (env : Env) (hsave : Saves env) : ∀ {cs : List TCmd} {s : State} {st st' : RState} {os : List Bytes},
    Agrees s st → (∀ c ∈ cs, c.WF) → Session env.compile env.openErr cs st st' os →
    ∃ s' ms, RunOk env s (cs.map TCmd.parsed) s' ms ∧ results ms = os.map (· ++ [nl]) ∧ Agrees s' st' := by
  intro cs
  induction cs with
  | nil =>
    intro s st st' os h _ hs
    cases hs
    exact ⟨s, [], ⟨rfl, rfl⟩, rfl, h⟩
  | cons c cs ih =>
    intro s st st' os h hwf hs
    cases hs with
    | cons hd hc1 hl1 hrest =>
      obtain ⟨s1, e1, h1⟩ := does_refines env hsave h (hwf c (by simp)) hd hc1 hl1
      obtain ⟨s2, ms, r2, o2, h2⟩ := ih h1 (fun x hx => hwf x (by simp [hx])) hrest
      refine ⟨s2, _, ⟨c.parsed_not_quit (hwf c (by simp)), s1, _, ms, e1, rfl, r2⟩, ?_, h2⟩
      simp [results_append, results_preamble, results, o2]

/-- **C84** `ed name`, given any command lines the reference editor can carry out, with any of the address
forms, omitted addresses, searches, empty commands, unsupported commands, `w` anywhere and `e` with the names of
other files, there or not, and then `q` or the end of the input: for every schedule of its goroutines, when it has
stopped it has stopped because of `q` or of the end of input, the results are those of the reference editor in order
(an empty one for opening the first file), there is no error message, and all files are as the reference editor leaves
them. -/
theorem C84_session (env : Env) (hsave : Saves env) (errText : Bytes → Bytes) (s0 : State) (name : Bytes) (hn : NameOK name)
    (hnp : PlainLine (b!"e " ++ name)) (ls : List Bytes) (hfs : s0.fs name = some (unlines ls)) (hc : Clean ls) (hlen : ls.length < 2 ^ 62)
    (cs : List TCmd) (ht : ∀ c ∈ cs, c.WF) (hp : ∀ l ∈ cs.flatMap TCmd.typed, PlainLine l) (quits : Bool)
    (st' : RState) (os : List Bytes) (hses : Session env.compile env.openErr cs ⟨ls, ls.length, name, s0.fs⟩ st' os) (st : Sys) (how : End)
    (hs : Steps env (initial errText s0 (mainInput (some name) (unlines (cs.flatMap TCmd.typed ++ lastLine quits)))) st)
    (he : st.cons.ended = some how) :
    how = (if quits then .quit else .finished) ∧ results st.out = ([] :: os).map (· ++ [nl]) ∧ errors st.out = [] ∧
    st.ed.fs = st'.files := by
  have hprog := program_tcmds errText name hn hnp cs ht hp quits
  obtain ⟨h1, h2, _⟩ := C69_schedule_independent env errText s0 _ st how hs he
  rw [hprog] at h1 h2
  rw [reports_evs] at h2
  rw [sends_evs] at h1
  let s1 : State := { s0 with filename := name, pt := Txt.newPieceTable (unlines ls) true (unlines ls).length, currentLine := ls.length }
  have sh1 : Shows s1 ls := ⟨(opened_shows ls 0).reach, (opened_shows ls 0).text⟩
  have hopen : processCommand env s0 { typ := .edit, params := [name] } = .ok (s1, []) := processCommand_edit env hfs hc
  have ag : Agrees s1 ⟨ls, ls.length, name, s0.fs⟩ := ⟨sh1, hc, rfl, hlen, Nat.le_of_lt hlen, rfl, rfl⟩
  obtain ⟨s2, ms, r2, o2, ag2⟩ := session_refines env hsave ag ht hses
  have hr : RunOk env s0 ({ typ := .edit, params := [name] } :: cs.map TCmd.parsed) s2 (preamble s0 { typ := .edit, params := [name] } ++
      .result ([] ++ [nl]) :: ms) := ⟨by simp, s1, [], ms, hopen, rfl, r2⟩
  have hseq := hr.sequential (lastCommand quits)
  have hlast : Ed.sequential env s2 (lastCommand quits) = (if quits then .quit else .finished, s2, []) := by
    cases quits <;> simp [lastCommand, Ed.sequential]
  rw [hseq, hlast] at h1
  simp only [Prod.mk.injEq, List.append_nil] at h1
  obtain ⟨rfl, rfl, hres⟩ := h1
  refine ⟨rfl, ?_, by simpa using h2, ag2.files⟩
  rw [← hres]
  simp [results_append, results_preamble, results, o2]

/-- **C84** `ed` without an operand whose first command line is `e name` is `ed name`. -/
theorem C84_operand (name rest : Bytes) : mainInput none (b!"e " ++ name ++ [nl] ++ rest) = mainInput (some name) rest := by
  simp [mainInput]

end Ed
