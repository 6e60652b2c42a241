import Verif.Ed.BlockProps
import Verif.Ed.TypedRun

/-! # Lines of 65536 bytes and more, typed (C93) and in the file (C94) -/

namespace Ed
open Go

/-! ## Specification: where a text block is open -/

/-- Typed lines that are whole commands: single lines, and blocks closed by a dot. -/
inductive Complete : List Bytes → Prop
  | nil : Complete []
  | line {l ls} : isStart l = false → Complete ls → Complete (l :: ls)
  | block {l body ls} : isStart l = true → (∀ x ∈ body, x ≠ b!".") → Complete ls → Complete (l :: (body ++ b!"." :: ls))

/-- Typed lines that end inside a block. -/
def Open (ls : List Bytes) : Prop :=
  ∃ done l body, ls = done ++ l :: body ∧ Complete done ∧ isStart l = true ∧ ∀ x ∈ body, x ≠ b!"."

theorem inBlock_body : ∀ (body : List Bytes), (∀ x ∈ body, x ≠ b!".") → ∀ rest, inBlock true (body ++ rest) = inBlock true rest := by
  intro body
  induction body with
  | nil => intros; rfl
  | cons b body ih =>
    intro h rest
    have hb : (b == b!".") = false := by simpa using h b (by simp)
    rw [List.cons_append, inBlock, hb]
    exact ih (fun x hx => h x (by simp [hx])) rest

theorem inBlock_complete {ls : List Bytes} (h : Complete ls) : ∀ rest, inBlock false (ls ++ rest) = inBlock false rest := by
  induction h with
  | nil => intros; rfl
  | line hl _ ih => intro rest; rw [List.cons_append, inBlock, hl]; exact ih rest
  | block hl hb _ ih =>
    intro rest
    rw [List.cons_append, inBlock, hl, List.append_assoc, inBlock_body _ hb, List.cons_append, inBlock]
    exact ih rest

theorem inBlock_open {ls : List Bytes} (h : Open ls) : inBlock false ls = true := by
  obtain ⟨done, l, body, rfl, hd, hl, hb⟩ := h
  rw [inBlock_complete hd, inBlock, hl]
  have := inBlock_body body hb []
  rw [List.append_nil] at this
  rw [this]; rfl

/-- Typed lines are whole commands or end inside a block. -/
theorem complete_or_open : ∀ (n : Nat) (ls : List Bytes), ls.length ≤ n → Complete ls ∨ Open ls := by
  intro n
  induction n with
  | zero => intro ls h; have e : ls = [] := List.length_eq_zero_iff.1 (by omega)
            exact .inl (e ▸ .nil)
  | succ n ih =>
    intro ls h
    cases ls with
    | nil => exact .inl .nil
    | cons l ls =>
      cases hl : isStart l with
      | false =>
        rcases ih ls (by simp at h; omega) with hc | ⟨done, l', body, rfl, h1, h2, h3⟩
        · exact .inl (.line hl hc)
        · exact .inr ⟨l :: done, l', body, rfl, .line hl h1, h2, h3⟩
      | true =>
        by_cases hdot : b!"." ∈ ls
        · obtain ⟨body, rest, rfl, hb'⟩ := List.eq_append_cons_of_mem hdot
          have hb : ∀ x ∈ body, x ≠ b!"." := fun x hx e => hb' (e ▸ hx)
          rcases ih rest (by simp at h; omega) with hc | ⟨done, l', body', rfl, h1, h2, h3⟩
          · exact .inl (.block hl hb hc)
          · exact .inr ⟨l :: (body ++ b!"." :: done), l', body', by simp, .block hl hb h1, h2, h3⟩
        · exact .inr ⟨[], l, ls, rfl, .nil, hl, fun x hx e => hdot (e ▸ hx)⟩

/-! ## C93: an over-long line on the input -/

/-- What is said about an over-long line. -/
def tooLongMsg : Bytes := b!"Err: bufio.Scanner: token too long\n"

theorem scan_long {pre : List Bytes} (hp : ∀ l ∈ pre, PlainLine l) {l : Bytes} (hn : nl ∉ l) (hl : maxToken ≤ l.length) {rest : Bytes}
    (hr : rest = [] ∨ ∃ r, rest = nl :: r) :
    scanLines (unlines pre ++ (l ++ rest)) = (pre, true) ∧
    (rawLines (unlines pre ++ (l ++ rest))).find? (fun l => decide (maxToken ≤ l.length)) = some l := by
  have e : ∃ more, rawLines (unlines pre ++ (l ++ rest)) = pre ++ l :: more := by
    rw [rawLines_unlines_append pre (fun x hx => (hp x hx).noNL)]
    rcases hr with rfl | ⟨r, rfl⟩
    · refine ⟨[], ?_⟩
      rw [List.append_nil, rawLines_unterminated l hn (by rintro rfl; simp at hl)]
    · exact ⟨_, by rw [rawLines_cons_line l hn]⟩
  obtain ⟨more, e⟩ := e
  rw [scanLines, e]
  clear e
  induction pre with
  | nil =>
    simp only [List.nil_append, scanTokens, List.find?_cons, decide_eq_true hl]
    rw [if_neg (by omega)]
    exact ⟨rfl, trivial⟩
  | cons x xs ih =>
    obtain ⟨h1, h2⟩ := ih (fun y hy => hp y (by simp [hy]))
    have hx := hp x (by simp)
    have hs := hx.short
    rw [List.cons_append, scanTokens, if_pos hs, h1, dropCR_plain hx.noCR, List.find?_cons, decide_eq_false (by omega)]
    exact ⟨rfl, h2⟩

/-- A line of text: `1d` and blanks. -/
def padded (n : Nat) : Bytes := b!"1d" ++ List.replicate n 32

theorem padded_length (n : Nat) : (padded n).length = n + 2 := by
  rw [padded, List.length_append, List.length_replicate]
  show 2 + n = n + 2
  omega

theorem padded_mem {n : Nat} {c : UInt8} (h : c ∈ padded n) : c = 49 ∨ c = 100 ∨ c = 32 := by
  rcases List.mem_append.1 h with h | h
  · simp at h; rcases h with rfl | rfl
    · exact .inl rfl
    · exact .inr (.inl rfl)
  · exact .inr (.inr (List.eq_of_mem_replicate h))

theorem padded_take (n k : Nat) : (padded n).take (k + 2) = padded (min k n) := by
  rw [padded, padded, List.take_append]
  have e : (b!"1d" : Bytes).length = 2 := rfl
  rw [List.take_of_length_le (by rw [e]; omega), e, Nat.add_sub_cancel, List.take_replicate]

/-- **C93** After whole commands, an over-long line and everything after it is ignored: the reader does what it does for
the commands before, and says so on standard output. -/
theorem C93_ignored (errText : Bytes → Bytes) {pre : List Bytes} (hp : ∀ l ∈ pre, PlainLine l) (hc : Complete pre) {l : Bytes}
    (hn : nl ∉ l) (hl : maxToken ≤ l.length) {rest : Bytes} (hr : rest = [] ∨ ∃ r, rest = nl :: r) :
    program errText (unlines pre ++ (l ++ rest)) = program errText (unlines pre) ++ [.say tooLongMsg] := by
  obtain ⟨h1, h2⟩ := scan_long hp hn hl hr
  have h3 := scanLines_unlines pre hp
  have hb := inBlock_complete hc []
  rw [List.append_nil] at hb
  rw [program, program, texts, texts_short (by rw [h3]), resumed, h1, h2, h3]
  simp only [hb]
  simp [inBlock, scanError, tooLongMsg]

example : program (fun _ => []) (unlines [b!"1p"] ++ (padded 65534 ++ b!"\n2p\n")) =
    [.send { typ := .print, start := aFirst, end_ := aFirst }, .say tooLongMsg] := by
  rw [C93_ignored (fun _ => []) (pre := [b!"1p"]) (plain_of _ (by decide)) (.line (by decide +kernel) .nil) (l := padded 65534)
    (fun h => by rcases padded_mem h with h | h | h <;> exact absurd h (by decide))
    (by rw [padded_length]; exact Nat.le_refl _) (rest := b!"\n2p\n") (.inr ⟨_, rfl⟩)]
  rw [show program (fun _ => []) (unlines [b!"1p"]) = [.send { typ := .print, start := aFirst, end_ := aFirst }] by decide +kernel]
  rfl

/-- **C93** (partial: expected is that no part of a text is executed) In an open block: the block is given to the parser
without what follows, and then the first 65536 bytes of the long line are executed as a command line; the rest of
the input is ignored. -/
theorem C93_executed_partial (errText : Bytes → Bytes) {pre : List Bytes} (hp : ∀ l ∈ pre, PlainLine l) (ho : Open pre) {l : Bytes}
    (hn : nl ∉ l) (hl : maxToken ≤ l.length) (hcr : (l.take maxToken).getLast? ≠ some cr) {rest : Bytes}
    (hr : rest = [] ∨ ∃ r, rest = nl :: r) :
    program errText (unlines pre ++ (l ++ rest)) =
      program errText (unlines pre) ++ eventsOf errText (l.take 65536) ++ [.say tooLongMsg] := by
  obtain ⟨h1, h2⟩ := scan_long hp hn hl hr
  have h3 := scanLines_unlines pre hp
  have hb := inBlock_open ho
  rw [program, program, texts, texts_short (by rw [h3]), resumed, h1, h2, h3]
  simp only [hb, if_true, dropCR_plain hcr]
  simp [scanError, tooLongMsg]

theorem padded_events (errText : Bytes → Bytes) (n : Nat) :
    eventsOf errText (padded n) = [.send { typ := .delete, start := ⟨.num, b!"1", 0⟩, end_ := ⟨.num, b!"1", 0⟩ }] := by
  have h := C67_range_commands [] (List.replicate n 32) blanks_nil
    (by intro c hc; rw [List.eq_of_mem_replicate hc]; exact .inl rfl) (.one (.lit b!"1") []) ⟨⟨by decide, by decide⟩, blanks_nil⟩ 100 .delete (by decide)
  have e : ([] ++ ((RangeSyn.one (.lit b!"1") []).bytes ++ [100]) ++ List.replicate n 32 ++ [10] : Bytes) = padded n ++ [nl] := rfl
  rw [e] at h
  rw [eventsOf_some h]
  rfl

/-- **C93** The expected statement is false: a user appends the line `hello` and a line that starts with `1d` and goes on
with blanks to 65536 bytes or more. The text is not appended; line 1 of the file is deleted; for every schedule. -/
theorem C93_counterexample (errText : Bytes → Bytes) (n : Nat) (hn : 65534 ≤ n) (st : Sys)
    (hs : Steps demoEnv (initial errText (opened [b!"one", b!"two"] 2) (unlines [b!"$a", b!"hello", padded n, b!"."])) st)
    (he : st.cons.ended = some .finished) :
    st.ed.pt.string = .ok b!"two\n" ∧ errors st.out = [63 :: errText b!"$a\nhello\n" ++ [nl]] := by
  have e1 : (unlines [b!"$a", b!"hello", padded n, b!"."] : Bytes) = unlines [b!"$a", b!"hello"] ++ (padded n ++ nl :: b!".\n") := by
    simp [unlines]
  have e2 := C93_executed_partial errText (pre := [b!"$a", b!"hello"]) (l := padded n) (rest := nl :: b!".\n")
    (plain_of _ (by decide)) ⟨[], b!"$a", [b!"hello"], rfl, .nil, by decide +kernel, by simp⟩
    (fun h => by rcases padded_mem h with h | h | h <;> exact absurd h (by decide))
    (by rw [padded_length]; show 65536 ≤ n + 2; omega)
    (fun h => by
      have := List.mem_of_mem_take (List.mem_of_getLast? h)
      rcases padded_mem this with h | h | h <;> exact absurd h (by decide))
    (.inr ⟨_, rfl⟩)
  have e3 : program errText (unlines [b!"$a", b!"hello"]) = [.report (63 :: errText b!"$a\nhello\n" ++ [nl])] := by
    have h3 := scanLines_unlines [b!"$a", b!"hello"] (plain_of _ (by decide))
    rw [program, texts_short (by rw [h3]), h3]
    have g : groups none [b!"$a", b!"hello"] = [b!"$a\nhello"] := by decide +kernel
    have p : parseCommands (b!"$a\nhello" ++ [nl]) = none := by decide +kernel
    simp only [g, List.flatMap_cons, List.flatMap_nil, eventsOf_none p]
    rfl
  rw [show (65536 : Nat) = 65534 + 2 from rfl, padded_take, padded_events, e3] at e2
  obtain ⟨h1, -, h3⟩ := C69_schedule_independent _ _ _ _ _ _ hs he
  rw [e1, e2] at h1 h3
  refine ⟨?_, ?_⟩
  · simp only [List.cons_append, List.nil_append, sends] at h1
    have := congrArg (fun r => r.2.1.pt.string) h1
    simp only at this
    rw [← this]
    decide +kernel
  · rw [h3 rfl]
    rfl

/-! ## C94: an over-long line in the buffer -/

/-- 65536 bytes in a row without a newline. -/
def Long (t : Bytes) : Prop := ∃ pre l rest, t = pre ++ (l ++ rest) ∧ nl ∉ l ∧ 65536 ≤ l.length

theorem rawLines_starts : ∀ (l rest : Bytes), nl ∉ l → l ≠ [] → ∃ m ms, rawLines (l ++ rest) = (l ++ m) :: ms := by
  intro l
  induction l with
  | nil => intro _ _ h; exact absurd rfl h
  | cons c cs ih =>
    intro rest hn _
    have hc : c ≠ nl := by rintro rfl; simp at hn
    simp only [List.cons_append, rawLines, hc, if_false]
    by_cases he : cs = []
    · subst he
      simp only [List.nil_append]
      cases h : rawLines rest with
      | nil => exact ⟨[], [], by simp⟩
      | cons m ms => exact ⟨m, ms, by simp⟩
    · obtain ⟨m, ms, h⟩ := ih rest (fun hm => hn (by simp [hm])) he
      rw [h]
      exact ⟨m, ms, rfl⟩

theorem rawLines_infix {l : Bytes} (hn : nl ∉ l) (hne : l ≠ []) (rest : Bytes) : ∀ pre : Bytes,
    ∃ x ∈ rawLines (pre ++ (l ++ rest)), l.length ≤ x.length := by
  intro pre
  induction pre with
  | nil =>
    obtain ⟨m, ms, h⟩ := rawLines_starts l rest hn hne
    rw [List.nil_append, h]
    exact ⟨_, List.mem_cons_self, by simp⟩
  | cons c cs ih =>
    obtain ⟨x, hx, hl⟩ := ih
    rw [List.cons_append, rawLines]
    split
    · exact ⟨x, by simp [hx], hl⟩
    · split
      · next e => rw [e] at hx; cases hx
      · next m ms e =>
        rw [e] at hx
        rcases List.mem_cons.1 hx with rfl | hx
        · exact ⟨c :: x, by simp, by simp; omega⟩
        · exact ⟨x, by simp [hx], hl⟩

theorem rawLines_first : ∀ {t m : Bytes} {ms : List Bytes}, rawLines t = m :: ms → ∃ r, t = m ++ r := by
  intro t
  induction t with
  | nil => intro m ms h; cases h
  | cons c cs ih =>
    intro m ms h
    rw [rawLines] at h
    split at h
    · injection h with h _
      subst h
      exact ⟨c :: cs, rfl⟩
    · split at h
      · injection h with h _
        subst h
        exact ⟨cs, rfl⟩
      · next l ls e =>
        injection h with h _
        subst h
        obtain ⟨r, er⟩ := ih e
        exact ⟨r, by rw [er]; rfl⟩

theorem infix_of_rawLines (t : Bytes) : ∀ l ∈ rawLines t, ∃ pre rest, t = pre ++ (l ++ rest) := by
  induction t with
  | nil => intro l hl; cases hl
  | cons c cs ih =>
    intro l hl
    rw [rawLines] at hl
    split at hl
    · rcases List.mem_cons.1 hl with rfl | hl
      · exact ⟨[], c :: cs, rfl⟩
      · obtain ⟨p, r, e⟩ := ih l hl
        exact ⟨c :: p, r, by rw [e]; rfl⟩
    · split at hl
      · rw [List.mem_singleton] at hl
        subst hl
        exact ⟨[], cs, rfl⟩
      · next m ms e =>
        rcases List.mem_cons.1 hl with rfl | hl
        · obtain ⟨r, er⟩ := rawLines_first e
          exact ⟨[], r, by rw [er]; rfl⟩
        · obtain ⟨p, r, er⟩ := ih l (by rw [e]; simp [hl])
          exact ⟨c :: p, r, by rw [er]; rfl⟩

theorem scan_long_iff (t : Bytes) : (scanLines t).2 = true ↔ Long t := by
  have key : ∀ raw : List Bytes, (scanTokens raw).2 = true ↔ ∃ l ∈ raw, maxToken ≤ l.length := by
    intro raw
    induction raw with
    | nil => simp [scanTokens]
    | cons l ls ih =>
      simp only [scanTokens]
      split
      · next h => simp only [ih, List.mem_cons, exists_eq_or_imp]; constructor
                  · exact fun h' => .inr h'
                  · rintro (h' | h'); omega; exact h'
      · next h => exact ⟨fun _ => ⟨l, by simp, by omega⟩, fun _ => rfl⟩
  rw [scanLines, key]
  constructor
  · rintro ⟨l, hl, hlen⟩
    obtain ⟨p, r, e⟩ := infix_of_rawLines t l hl
    exact ⟨p, l, r, e, rawLines_no_nl t l hl, hlen⟩
  · rintro ⟨p, l, r, rfl, hn, hl⟩
    obtain ⟨x, hx, h⟩ := rawLines_infix hn (by rintro rfl; simp at hl) r p
    exact ⟨x, hx, by show 65536 ≤ _; omega⟩

theorem opened_string (contents : Bytes) : (Txt.newPieceTable contents true contents.length).string = .ok contents := by
  have r : Txt.Reachable (Txt.newPieceTable contents true contents.length) := .new contents true contents.length (Nat.le_refl _)
  rw [Txt.string_wf r.good.toWF]
  simp [Txt.newPieceTable, Txt.content, Txt.Piece.text, Txt.src]

theorem scanned_long {s : State} {t : Bytes} (ht : s.pt.string = .ok t) (h : Long t) : scanned s = .error .explicit := by
  simp only [scanned, ht, (scan_long_iff t).2 h, if_true]

theorem getLines_long {s : State} {t : Bytes} (ht : s.pt.string = .ok t) (h : Long t) : getLines s = .error .explicit := by
  simp only [getLines, scanned_long ht h]

/-- **C94** Expected: `e` opens any file that can be read. Exactly: it opens a file without 65536 bytes in a row that
have no newline among them; on any other file the editor ends with a panic. -/
theorem C94_open_partial (env : Env) (s : State) {name contents : Bytes} (hfs : s.fs name = some contents) :
    (Long contents → processCommand env s { typ := .edit, params := [name] } = .error (.panic .explicit)) ∧
    (¬ Long contents → ∃ s', processCommand env s { typ := .edit, params := [name] } = .ok (s', []) ∧
      s'.pt.string = .ok contents ∧ s'.filename = name ∧ s'.fs = s.fs) := by
  have e : setDefaultAddresses { typ := .edit, params := [name] } = { typ := .edit, params := [name], start := aCur, end_ := aCur } := rfl
  have hstr : ({ s with filename := name, pt := Txt.newPieceTable contents true contents.length } : State).pt.string = .ok contents :=
    opened_string contents
  refine ⟨fun h => ?_, fun h => ?_⟩
  · have hg := getLines_long hstr h
    simp only [processCommand, e, List.headD_cons, edit, hfs, hg]
    rfl
  · have hs : (scanLines contents).2 = false := by
      cases hb : (scanLines contents).2 with
      | false => rfl
      | true => exact absurd ((scan_long_iff contents).1 hb) h
    have hg : getLines { s with filename := name, pt := Txt.newPieceTable contents true contents.length } =
        .ok (dropBlank (scanLines contents).1) := by
      simp only [getLines, scanned, hstr, hs]
      rfl
    refine ⟨{ s with filename := name, pt := Txt.newPieceTable contents true contents.length
                     currentLine := (dropBlank (scanLines contents).1).length }, ?_, hstr, rfl, rfl⟩
    simp only [processCommand, e, List.headD_cons, edit, hfs, hg]
    rfl

theorem long_replicate (n : Nat) (h : 65536 ≤ n) (c : UInt8) (hc : c ≠ nl) (pre rest : Bytes) : Long (pre ++ (List.replicate n c ++ rest)) :=
  ⟨pre, List.replicate n c, rest, rfl, fun hm => hc (List.eq_of_mem_replicate hm).symm, by rw [List.length_replicate]; exact h⟩

/-- A file with a short line and a long one. -/
def longFS : FS := fun n => if n = b!"f" then some (b!"x\n" ++ (List.replicate 65536 97 ++ b!"\n")) else none

example (env : Env) (s : State) :
    processCommand env { s with fs := longFS } { typ := .edit, params := [b!"f"] } = .error (.panic .explicit) :=
  (C94_open_partial env { s with fs := longFS } (name := b!"f") rfl).1 (long_replicate _ (Nat.le_refl _) _ (by decide) _ _)

example : ¬ Long b!"one\ntwo\n" := by
  rw [← scan_long_iff]; decide +kernel

/-- **C94** `ed name` on such a file: whatever is typed and however the goroutines are scheduled, the editor ends with a
panic before any command is executed, having printed no result. No file is changed. -/
theorem C94_program (env : Env) (errText : Bytes → Bytes) (s0 : State) (name : Bytes) (hn : NameOK name) (hnp : PlainLine (b!"e " ++ name))
    {contents : Bytes} (hfs : s0.fs name = some contents) (hl : Long contents) (stdin : Bytes) (st : Sys) (how : End)
    (hs : Steps env (initial errText s0 (mainInput (some name) stdin)) st) (he : st.cons.ended = some how) :
    how = .crashed (.panic .explicit) ∧ st.ed = s0 ∧ results st.out = [] := by
  have p1 : parseCommands (b!"e " ++ name ++ [nl]) = some [{ typ := .edit, params := [name] }] := by
    have := C67_names [] b!" " blanks_nil (by simp [Blanks]) (by simp) name hn 101 .edit (by decide)
    simpa using this
  have hscan : (scanLines (mainInput (some name) stdin)).1 = (b!"e " ++ name) :: (scanLines stdin).1 := by
    rw [scanLines, mainInput, List.append_assoc, List.append_assoc, ← List.append_assoc, List.singleton_append,
      rawLines_cons_line _ hnp.noNL, scanTokens, if_pos hnp.short, dropCR_plain hnp.noCR]
    rfl
  have hsend : ∃ more, sends (program errText (mainInput (some name) stdin)) = { typ := .edit, params := [name] } :: more := by
    rw [C87_order, texts, hscan, groups, if_neg (by rw [edit_not_start]; decide)]
    exact ⟨_, by rw [List.cons_append, List.flatMap_cons, p1]; rfl⟩
  obtain ⟨more, hsend⟩ := hsend
  obtain ⟨h1, -, -⟩ := C69_schedule_independent env errText s0 _ st how hs he
  have hx := (C94_open_partial env s0 hfs).1 hl
  rw [hsend, sequential, if_neg (by simp), hx] at h1
  simp only [crashState, Prod.mk.injEq] at h1
  exact ⟨h1.1.symm, h1.2.1.symm, h1.2.2.symm⟩

example (errText : Bytes → Bytes) (st : Sys) (how : End)
    (hs : Steps demoEnv (initial errText { fresh with fs := longFS } (mainInput (some b!"f") b!"1p\nq\n")) st)
    (he : st.cons.ended = some how) : how = .crashed (.panic .explicit) :=
  (C94_program demoEnv errText { fresh with fs := longFS } b!"f" ⟨by decide, by decide, by decide, by rintro c cs ⟨⟩; decide⟩
    (plain_ascii _ (by decide) (by decide) (by decide)) rfl (long_replicate _ (Nat.le_refl _) _ (by decide) _ _) _ st how hs he).1

theorem addrLine_long (env : Env) {s : State} {t : Bytes} (ht : s.pt.string = .ok t) (h : Long t) (a : Address) :
    (∃ n, addrLine env s a = .ok n) ∨ addrLine env s a = .error (.panic .explicit) := by
  cases ha : a.typ <;> simp only [addrLine, ha, getLines_long ht h, regexMatch]
  · exact .inr trivial
  · exact .inl ⟨_, rfl⟩
  · exact .inr trivial
  · exact .inl ⟨_, rfl⟩
  all_goals exact .inr trivial

/-- The commands that look at lines. -/
def looksAtLines (t : CmdType) : Bool :=
  t == .print || t == .number || t == .null || t == .delete || t == .append || t == .insert || t == .change

/-- **C94** A buffer can come to hold such a line (when text is inserted into a line). Then every command that prints or
changes lines ends the editor with a panic, whatever its addresses. -/
theorem C94_commands (env : Env) {s : State} {t : Bytes} (ht : s.pt.string = .ok t) (h : Long t) (c : Command)
    (hc : looksAtLines c.typ = true) : processCommand env s c = .error (.panic .explicit) := by
  have ha := addrLine_long env ht h (setDefaultAddresses c).start
  have hb := addrLine_long env ht h (setDefaultAddresses c).end_
  have hp : ∀ a b, print env s a b = .error .explicit := fun a b => by simp only [print, scanned_long ht h]
  have hp' : ∀ n a b, print env { s with currentLine := n } a b = .error .explicit := fun n a b => by
    simp only [print, scanned_long (s := { s with currentLine := n }) ht h]
  have hnm : ∀ a b, number s a b = .error .explicit := fun a b => by simp only [number, getLines_long ht h]
  have hg : ∀ a, getLineAddr s a = .error .explicit := fun a => by simp only [getLineAddr, getLines_long ht h]
  have hd : ∀ a b, delete s a b = .error .explicit := fun a b => by simp only [delete, hg]
  have hi : ∀ a x, insertBeforeLine s a x = .error .explicit := fun a x => by simp only [insertBeforeLine, hg]
  have ht' := typ_setDefault c
  simp only [looksAtLines, Bool.or_eq_true, beq_iff_eq] at hc
  simp only [processCommand, ht']
  rcases hc with (((((hc | hc) | hc) | hc) | hc) | hc) | hc <;> simp only [hc] <;>
    rcases ha with ⟨a, ha⟩ | ha <;> simp only [ha, bind, Except.bind, lift, hp', hi]
  all_goals rcases hb with ⟨b, hb⟩ | hb <;> simp only [hb, hp, hnm, hd]

/-- An editor whose buffer has such a line. -/
def longBuffer (n : Nat) : State :=
  { fresh with pt := Txt.newPieceTable (List.replicate n 97) true (List.replicate n (97 : UInt8)).length, filename := b!"f" }

theorem longBuffer_long {n : Nat} (h : 65536 ≤ n) : (longBuffer n).pt.string = .ok (List.replicate n 97) ∧ Long (List.replicate n 97) := by
  refine ⟨opened_string _, ?_⟩
  have := long_replicate n h 97 (by decide) [] []
  rwa [List.nil_append, List.append_nil] at this

example : processCommand demoEnv (longBuffer 65536) { typ := .print } = .error (.panic .explicit) :=
  C94_commands demoEnv (longBuffer_long (Nat.le_refl _)).1 (longBuffer_long (Nat.le_refl _)).2 _ rfl

/-- **C94** `w` then saves the buffer, and the editor ends with a panic when it opens the file again: the file holds the
text, but there is no answer and the editor is gone. -/
theorem C94_write (env : Env) {s : State} {t : Bytes} (ht : s.pt.string = .ok t) (h : Long t) (c : Command) (hc : c.typ = .write)
    (hok : (saveTrace (env.outcome s.writes) s.fs s.filename t).2 = none) (cs : List Command) :
    ∃ s', sequential env s (c :: cs) = (.crashed (.panic .explicit), s', []) ∧ s'.fs s.filename = some t := by
  have hfin := ((C70_outcome (env.outcome s.writes) s.fs s.filename t).1 hok).1
  have hg : ∀ s1 : State, s1.pt.string = .ok t → getLines s1 = .error .explicit := fun s1 h1 => getLines_long h1 h
  have hx : processCommand env s c = .error (.panic .explicit) := by
    rw [C71_arguments_ignored env s c hc]
    have e : setDefaultAddresses { typ := .write } = { typ := .write, start := aCur, end_ := aLast } := rfl
    have hw : write env s = .error .explicit := by
      simp only [write, ht, hok, edit, hfin]
      rw [hg _ (opened_string t)]
    simp only [processCommand, e, hw]
    rfl
  refine ⟨crashState env s c, ?_, ?_⟩
  · rw [sequential, if_neg (by rw [hc]; decide), hx]
  · simp only [crashState, hc, if_true, ht]
    exact hfin

example (n : Nat) (h : 65536 ≤ n) : ∃ s', sequential demoEnv (longBuffer n) [{ typ := .write }] = (.crashed (.panic .explicit), s', []) ∧
    s'.fs b!"f" = some (List.replicate n 97) :=
  C94_write demoEnv (longBuffer_long h).1 (longBuffer_long h).2 _ rfl (by
    generalize List.replicate n (97 : UInt8) = t
    simp [saveTrace, statError, longBuffer, fresh, demoEnv]) []

/-! ## Where a session begins -/

/-- **C84** `ProcessCommands` begins at the last line of the buffer, whatever the current line was. -/
theorem C84_begins {s : State} {ls : List Bytes} (h : Shows s ls) (hc : Clean ls) : begin_ s = .ok { s with currentLine := ls.length } := by
  simp only [begin_, getLines_shows h hc.plain, dropBlank_clean hc.lastNe]

/-- **C84** Without a file it begins at line 0. -/
theorem C84_begins_empty (fs : FS) : begin_ (noFile fs) = .ok (noFile fs) := by
  have hz : (noFile fs).pt.string = .ok [] := (Txt.C06_zero_value [] [] 0 0).1
  have hg : getLines (noFile fs) = .ok [] := by simp only [getLines, scanned, hz]; rfl
  simp only [begin_, hg]
  rfl

/-- **C94** On a buffer with a line too long it panics before it reads a command. -/
theorem C94_begins {s : State} {t : Bytes} (ht : s.pt.string = .ok t) (h : Long t) : begin_ s = .error .explicit := by
  simp only [begin_, getLines_long ht h]

example : begin_ (longBuffer 65536) = .error .explicit :=
  C94_begins (longBuffer_long (Nat.le_refl _)).1 (longBuffer_long (Nat.le_refl _)).2

end Ed
