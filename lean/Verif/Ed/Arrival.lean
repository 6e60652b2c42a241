import Verif.Ed.ProcessProps
import Verif.Go.ScannerProps

/-! # The reader of `ed` on input that arrives piece by piece (C113, C114) -/

namespace Ed
open Go

/-- ed.go:220-225: the lines of a block are added to the command (with a bound on the number of rounds). -/
def blockFrom : (rounds : Nat) → Scanner → (cmd : Bytes) → Bytes × Scanner
  | 0, s, cmd => (cmd, s)
  | k + 1, s, cmd =>
    match s.scan splitLines with
    | (none, s1) => (cmd, s1)
    | (some t, s1) => if t = b!"." then (cmd ++ nl :: t, s1) else blockFrom k s1 (cmd ++ nl :: t)

/-- ed.go:215-226: the texts the loop over the scanner gives to the parser, and the scanner at its end (with a bound on the
number of rounds). -/
def textsFrom : (rounds : Nat) → Scanner → List Bytes × Scanner
  | 0, s => ([], s)
  | k + 1, s =>
    match s.scan splitLines with
    | (none, s1) => ([], s1)
    | (some cmd, s1) =>
      let b := if isStart cmd then blockFrom k s1 cmd else (cmd, s1)
      let r := textsFrom k b.2
      (b.1 :: r.1, r.2)

/-- ed.go:241-243: the error of the scanner is printed on standard output. -/
def errorLine : Option ScanErr → List Ev
  | none => []
  | some e => [.say (b!"Err: " ++ e.text ++ [nl])]

/-- ed.go:213-246: the actions of the goroutine that reads. -/
def programFrom (errText : Bytes → Bytes) (r : Source) : List Ev :=
  let x := textsFrom (r.bytes.length + 2) (newScanner r)
  x.1.flatMap (eventsOf errText) ++ errorLine x.2.failure

/-- cmd/ed/main.go:11-18: with an argument, a reader for the command `e` is put before standard input. -/
def inputFrom (edit : Option Bytes) (r : Source) : Source :=
  match edit with
  | none => r
  | some f => { r with chunks := (b!"e " ++ f ++ [nl]) :: r.chunks }

/-! ## Proofs -/

/-- What is delivered after a line that is too long, for raw lines. -/
def left (open_ : Bool) (ls : List Bytes) : List Bytes :=
  match ls.find? (fun l => decide (maxToken ≤ l.length)) with
  | none => []
  | some l => if inBlock open_ (scanTokens ls).1 then [dropCR (l.take maxToken)] else []

theorem left_nil (b : Bool) : left b [] = [] := rfl

theorem left_long (b : Bool) (l : Bytes) (ls : List Bytes) (h : maxToken ≤ l.length) :
    left b (l :: ls) = if b then [dropCR (l.take maxToken)] else [] := by
  have : (scanTokens (l :: ls)).1 = [] := by rw [scanTokens, if_neg (by omega)]
  rw [left, this, List.find?_cons, decide_eq_true h]
  cases b <;> rfl

theorem left_short (b b' : Bool) (l : Bytes) (ls : List Bytes) (h : l.length < maxToken)
    (hb : b' = if b then !(dropCR l == b!".") else isStart (dropCR l)) : left b (l :: ls) = left b' ls := by
  have : (scanTokens (l :: ls)).1 = dropCR l :: (scanTokens ls).1 := by rw [scanTokens, if_pos h]
  rw [left, left, this, List.find?_cons, decide_eq_false (by omega)]
  cases b <;> simp only [inBlock, hb] <;> rfl

theorem tokens_short (l : Bytes) (ls : List Bytes) (h : l.length < maxToken) :
    scanTokens (l :: ls) = (dropCR l :: (scanTokens ls).1, (scanTokens ls).2) := by rw [scanTokens, if_pos h]

theorem tokens_long (l : Bytes) (ls : List Bytes) (h : maxToken ≤ l.length) : scanTokens (l :: ls) = ([], true) := by
  rw [scanTokens, if_neg (by omega)]

theorem join_more (b : List Bytes) (l : Bytes) (hb : b ≠ []) :
    join [nl] (l :: b).reverse = join [nl] b.reverse ++ nl :: l := by
  have key : ∀ (x : List Bytes), x ≠ [] → join [nl] (x ++ [l]) = join [nl] x ++ nl :: l := by
    intro x
    induction x with
    | nil => intro h; exact absurd rfl h
    | cons y ys ih =>
      intro _
      cases ys with
      | nil => simp [join]
      | cons z zs =>
        have := ih (by simp)
        simp only [List.cons_append] at this ⊢
        rw [join, join, this]
        simp
  rw [List.reverse_cons]
  exact key _ (by simpa using hb)

theorem blockFrom_ready {e : ScanErr} : ∀ (k : Nat) (s : Scanner) (ls : List Bytes) (b : List Bytes), b ≠ [] → Ready e s ls → ls.length < k →
    (∃ ls', Ready e (blockFrom k s (join [nl] b.reverse)).2 ls' ∧ ls'.length ≤ ls.length ∧ (scanTokens ls).2 = (scanTokens ls').2 ∧
      groups (some b) (scanTokens ls).1 ++ left true ls =
        (blockFrom k s (join [nl] b.reverse)).1 :: (groups none (scanTokens ls').1 ++ left false ls')) ∨
    (∃ l, Stuck (blockFrom k s (join [nl] b.reverse)).2 l ∧ l ≠ [] ∧ (scanTokens ls).2 = true ∧ 1 ≤ ls.length ∧
      groups (some b) (scanTokens ls).1 ++ left true ls = [(blockFrom k s (join [nl] b.reverse)).1, dropCR l]) := by
  intro k
  induction k with
  | zero => intro s ls b _ _ h; omega
  | succ k ih =>
    intro s ls b hb hr hk
    obtain ⟨g1, g2, g3⟩ := scan_ready hr
    cases ls with
    | nil =>
      obtain ⟨a, -, c⟩ := g1 rfl
      generalize hs : s.scan splitLines = r at a c
      obtain ⟨t, s1⟩ := r
      simp only at a c
      subst a
      left
      refine ⟨[], ?_, Nat.le_refl _, rfl, ?_⟩
      · rw [blockFrom, hs]; exact c
      · rw [blockFrom, hs]; rfl
    | cons l ls =>
      by_cases hl : l.length < maxToken
      · obtain ⟨a, c⟩ := g2 l ls rfl hl
        generalize hs : s.scan splitLines = r at a c
        obtain ⟨t, s1⟩ := r
        simp only at a c
        subst a
        by_cases hdot : dropCR l = b!"."
        · left
          refine ⟨ls, ?_, by simp, ?_, ?_⟩
          · rw [blockFrom, hs]; simp only; rw [if_pos hdot]; exact c
          · rw [tokens_short l ls hl]
          · rw [blockFrom, hs, tokens_short l ls hl, left_short true false l ls hl (by simp [hdot])]
            simp only
            rw [if_pos hdot, groups, if_pos hdot, join_more b _ hb]
            rfl
        · have hb' : (dropCR l :: b) ≠ [] := by simp
          have e1 : blockFrom (k + 1) s (join [nl] b.reverse) = blockFrom k s1 (join [nl] (dropCR l :: b).reverse) := by
            rw [blockFrom, hs]
            simp only
            rw [if_neg hdot, join_more b _ hb]
          have e2 : groups (some b) (scanTokens (l :: ls)).1 ++ left true (l :: ls) =
              groups (some (dropCR l :: b)) (scanTokens ls).1 ++ left true ls := by
            rw [tokens_short l ls hl, left_short true true l ls hl (by simpa using hdot)]
            simp only
            rw [groups, if_neg hdot]
          have e3 : (scanTokens (l :: ls)).2 = (scanTokens ls).2 := by rw [tokens_short l ls hl]
          rw [e1, e2, e3]
          rcases ih s1 ls (dropCR l :: b) hb' c (by simp at hk; omega) with ⟨ls', i1, i2, i3, i4⟩ | ⟨l', i1, i2, i3, i4, i5⟩
          · exact .inl ⟨ls', i1, by simp; omega, i3, i4⟩
          · exact .inr ⟨l', i1, i2, i3, by simp, i5⟩
      · have hl' : maxToken ≤ l.length := by omega
        obtain ⟨a, c⟩ := g3 l ls rfl hl'
        generalize hs : s.scan splitLines = r at a c
        obtain ⟨t, s1⟩ := r
        simp only at a c
        subst a
        right
        refine ⟨l.take maxToken, ?_, ?_, ?_, by simp, ?_⟩
        · rw [blockFrom, hs]; exact c
        · intro h0
          have := congrArg List.length h0
          rw [List.length_take, Nat.min_eq_left hl'] at this
          cases this
        · rw [tokens_long l ls hl']
        · rw [blockFrom, hs, tokens_long l ls hl', left_long true l ls hl']
          rfl

theorem textsFrom_done {e : ScanErr} (k : Nat) (s : Scanner) (h : Ready e s []) (hk : 1 ≤ k) :
    (textsFrom k s).1 = [] ∧ (textsFrom k s).2.err = some e := by
  obtain ⟨k, rfl⟩ : ∃ m, k = m + 1 := ⟨k - 1, by omega⟩
  obtain ⟨a, c, -⟩ := (scan_ready h).1 rfl
  generalize hs : s.scan splitLines = r at a c
  obtain ⟨t, s1⟩ := r
  simp only at a c
  subst a
  rw [textsFrom, hs]
  exact ⟨rfl, c⟩

theorem textsFrom_stuck (k : Nat) (s : Scanner) (l : Bytes) (h : Stuck s l) (hl : l ≠ []) (hk : 2 ≤ k) :
    (textsFrom k s).1 = [dropCR l] ∧ (textsFrom k s).2.err = some .tooLong := by
  obtain ⟨k, rfl⟩ : ∃ m, k = m + 2 := ⟨k - 2, by omega⟩
  obtain ⟨a, c⟩ := scan_stuck h hl
  generalize hs : s.scan splitLines = r at a c
  obtain ⟨t, s1⟩ := r
  simp only at a c
  subst a
  rw [textsFrom, hs]
  simp only
  split
  · obtain ⟨a, -, c'⟩ := (scan_ready c).1 rfl
    have e1 : blockFrom (k + 1) s1 (dropCR l) = (dropCR l, (s1.scan splitLines).2) := by
      generalize hs1 : s1.scan splitLines = r at a c'
      obtain ⟨t, s2⟩ := r
      simp only at a
      subst a
      rw [blockFrom, hs1]
    rw [e1]
    obtain ⟨q1, q2⟩ := textsFrom_done (k + 1) _ c' (by omega)
    exact ⟨by rw [q1], q2⟩
  · obtain ⟨q1, q2⟩ := textsFrom_done (k + 1) _ c (by omega)
    exact ⟨by rw [q1], q2⟩

theorem textsFrom_ready {e : ScanErr} : ∀ (k : Nat) (s : Scanner) (ls : List Bytes), Ready e s ls → ls.length + 2 ≤ k →
    (textsFrom k s).1 = groups none (scanTokens ls).1 ++ left false ls ∧
    (textsFrom k s).2.err = some (if (scanTokens ls).2 then .tooLong else e) := by
  intro k
  induction k with
  | zero => intro s ls _ h; omega
  | succ k ih =>
    intro s ls hr hk
    obtain ⟨g1, g2, g3⟩ := scan_ready hr
    cases ls with
    | nil =>
      obtain ⟨q1, q2⟩ := textsFrom_done (k + 1) s hr (by omega)
      exact ⟨by rw [q1]; rfl, by rw [q2]; rfl⟩
    | cons l ls =>
      simp only [List.length_cons] at hk
      by_cases hl : l.length < maxToken
      · obtain ⟨a, c⟩ := g2 l ls rfl hl
        generalize hs : s.scan splitLines = r at a c
        obtain ⟨t, s1⟩ := r
        simp only at a c
        subst a
        rw [textsFrom, hs, tokens_short l ls hl]
        simp only
        by_cases hst : isStart (dropCR l) = true
        · rw [if_pos hst, left_short false true l ls hl (by simp [hst]), groups, if_pos hst]
          have e1 : dropCR l = join [nl] [dropCR l].reverse := by simp [join]
          rcases blockFrom_ready k s1 ls [dropCR l] (by simp) c (by omega) with ⟨ls', i1, i2, i3, i4⟩ | ⟨l', i1, i2, i3, i4, i5⟩
          · rw [← e1] at i1 i4
            obtain ⟨q1, q2⟩ := ih _ ls' i1 (by omega)
            exact ⟨by rw [i4, q1], by rw [q2, i3]⟩
          · rw [← e1] at i1 i5
            obtain ⟨q1, q2⟩ := textsFrom_stuck k _ l' i1 i2 (by omega)
            exact ⟨by rw [i5, q1], by rw [q2, i3]; rfl⟩
        · rw [if_neg hst, left_short false false l ls hl (by simp [hst]), groups, if_neg hst]
          obtain ⟨q1, q2⟩ := ih s1 ls c (by omega)
          exact ⟨by rw [q1]; rfl, q2⟩
      · have hl' : maxToken ≤ l.length := by omega
        obtain ⟨a, c⟩ := g3 l ls rfl hl'
        generalize hs : s.scan splitLines = r at a c
        obtain ⟨t, s1⟩ := r
        simp only at a c
        subst a
        rw [textsFrom, hs, tokens_long l ls hl', left_long false l ls hl']
        exact ⟨rfl, c.2.2⟩

theorem textsFrom_all (r : Source) (hl : r.Lively) :
    (textsFrom (r.bytes.length + 2) (newScanner r)).1 = texts r.bytes ∧
    (textsFrom (r.bytes.length + 2) (newScanner r)).2.err = some (if (scanLines r.bytes).2 then .tooLong else r.ending) := by
  have := rawLines_length r.bytes
  exact textsFrom_ready (r.bytes.length + 2) _ _ (new_ready r hl) (by omega)

/-- **C113** What the reader of the editor does is determined by the bytes of its input (and the error at the end, if
any), in whatever pieces they arrive. -/
theorem C113_ed (errText : Bytes → Bytes) (r : Source) (hl : r.Lively) (he : r.err = none) :
    programFrom errText r = program errText r.bytes := by
  obtain ⟨h1, h2⟩ := textsFrom_all r hl
  rw [programFrom, program, h1, Scanner.failure, h2]
  congr 1
  cases (scanLines r.bytes).2 with
  | true => rfl
  | false => simp [Source.ending, he, errorLine, scanError]

example : programFrom (fun _ => []) { chunks := [b!"$", b!"a\nx\r", b!"\n.\n1", b!"p"] } =
    program (fun _ => []) b!"$a\nx\r\n.\n1p" := C113_ed _ _ (by intro c hc; simp at hc; rcases hc with rfl | rfl | rfl | rfl <;> decide) rfl

/-- **C113** The same for the command, with and without an argument. -/
theorem C113_ed_command (errText : Bytes → Bytes) (edit : Option Bytes) (r : Source) (hl : r.Lively) (he : r.err = none) :
    programFrom errText (inputFrom edit r) = program errText (mainInput edit r.bytes) := by
  cases edit with
  | none => exact C113_ed errText r hl he
  | some f =>
    rw [C113_ed errText (inputFrom (some f) r) ?_ he]
    · simp [inputFrom, mainInput, Source.bytes]
    · intro c hc
      simp only [inputFrom, List.mem_cons] at hc
      rcases hc with rfl | hc
      · simp
      · exact hl c hc

/-- **C114** (the expectation fails) When reading ends with an error the editor has already done everything it would have
done at the end of the input, with an incomplete last line as if it were complete; then it prints the error. -/
theorem C114_ed_executes (errText : Bytes → Bytes) (r : Source) (hl : r.Lively) (e : Bytes) (he : r.err = some e)
    (hs : (scanLines r.bytes).2 = false) :
    programFrom errText r = program errText r.bytes ++ [.say (b!"Err: " ++ e ++ [nl])] := by
  obtain ⟨h1, h2⟩ := textsFrom_all r hl
  rw [programFrom, program, h1, Scanner.failure, h2, hs]
  simp [Source.ending, he, errorLine, scanError, ScanErr.text]

theorem rawLines_completed : ∀ b : Bytes, b ≠ [] → b.getLast? ≠ some nl → rawLines (b ++ [nl]) = rawLines b := by
  intro b
  induction b with
  | nil => intro h; exact absurd rfl h
  | cons c b ih =>
    intro _ hlast
    cases b with
    | nil =>
      have hc : c ≠ nl := by rintro rfl; exact hlast rfl
      simp [rawLines, hc]
    | cons d b =>
      have := ih (by simp) (by simpa [List.getLast?_cons] using hlast)
      rw [List.cons_append, rawLines, rawLines, this]

/-- **C114** (the expectation fails) What was typed of a line when reading failed is executed as if the line had been
finished. -/
theorem C114_ed_incomplete (errText : Bytes → Bytes) (r : Source) (hl : r.Lively) (e : Bytes) (he : r.err = some e)
    (hs : (scanLines r.bytes).2 = false) (h0 : r.bytes ≠ []) (hn : r.bytes.getLast? ≠ some nl) :
    programFrom errText r = program errText (r.bytes ++ [nl]) ++ [.say (b!"Err: " ++ e ++ [nl])] := by
  rw [C114_ed_executes errText r hl e he hs]
  have : scanLines (r.bytes ++ [nl]) = scanLines r.bytes := by rw [scanLines, scanLines, rawLines_completed _ h0 hn]
  simp only [program, texts, resumed, this, rawLines_completed _ h0 hn]

/-- **C114** A case: of the line `e notes.old` only the first seven characters arrive, and the editor is told to load the
file `notes`. -/
theorem C114_ed_counterexample :
    ∃ r : Source, r.Lively ∧ r.err = some b!"connection reset" ∧ r.bytes = b!"e notes" ∧
      (sends (programFrom (fun _ => []) r)).map (fun c => (c.typ, c.params)) = [(.edit, [b!"notes"])] := by
  refine ⟨{ chunks := [b!"e no", b!"tes"], err := some b!"connection reset" }, ?_, rfl, rfl, by decide +kernel⟩
  intro c hc
  simp at hc
  rcases hc with rfl | rfl <;> decide

end Ed
