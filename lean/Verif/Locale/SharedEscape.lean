import Verif.Locale.LexerStops

/-!
# Several lexers at once (C100)

`removeComments` assigns to the package variable `escapeChar` (localelex.go:25, 506, 516). The lexer of one file runs in
its own goroutine (`l.Start`, localelex.go:550) and reads the variable in `grabEscapeInString` (localelex.go:289), also
after another `NewLexer` has assigned to it.
-/

namespace Locale
open Go

/-! ## Specification -/

/-- What the lexer made by `NewLexer(input)` (localelex.go:544-552) delivers if other lexers are made while it runs: `esc`
gives the value of `escapeChar` it sees at each position. -/
def newLexerShared (esc : Nat → Nat) (n : Nat) (input : Bytes) : Res (List Tok) :=
  match removeComments input with
  | .error p => .panic p
  | .ok (text, _) =>
    match lexText esc n text with
    | .ok _ l => .ok (visible l.toks) l
    | .panic p => .panic p
    | .hang => .hang

/-- The file has no line that sets the escape character. -/
def NoEscapeChar (input : Bytes) : Prop := ∀ l ∈ split input [nl], ∀ e, ¬ Sets b!"escape_char" l e

/-- The values `NewLexer(input)` may assign to `escapeChar`: a backslash first, then what `escape_char` lines say. -/
def MayAssign (input : Bytes) (e : Nat) : Prop :=
  e = 92 ∨ ∃ l ∈ split input [nl], Sets b!"escape_char" l e

/-- What a lexer for `input` may see while lexers for the `others` are made: at first what its own text left in the
variable, then values the others assign. -/
def MaySee (input : Bytes) (others : List Bytes) (esc : Nat → Nat) : Prop :=
  ∃ text e, removeComments input = .ok (text, e) ∧ ∃ k, (∀ p, p < k → esc p = e) ∧ ∀ p, k ≤ p → ∃ o ∈ others, MayAssign o (esc p)

/-! ## The escape character is looked at only after a backslash -/

/-- The same on a given text, which is kept. -/
def Sim {α : Type} (src : Bytes) (m m' : Lx α) : Prop :=
  ∀ l, l.source = src → m l = m' l ∧ ∀ a l', m l = .ok a l' → l'.source = src

theorem Sim.bind {α β : Type} {src : Bytes} {m m' : Lx α} {f f' : α → Lx β} (h : Sim src m m') (h' : ∀ a, Sim src (f a) (f' a)) :
    Sim src (m >>= f) (m' >>= f') := by
  intro l hl
  obtain ⟨h1, h2⟩ := h l hl
  show Lx.bind m f l = Lx.bind m' f' l ∧ ∀ a l', Lx.bind m f l = .ok a l' → _
  simp only [Lx.bind, ← h1]
  cases e : m l with
  | ok a l1 => exact h' a l1 (h2 a l1 e)
  | panic p => exact ⟨rfl, fun _ _ h => by cases h⟩
  | hang => exact ⟨rfl, fun _ _ h => by cases h⟩

theorem Sim.pure {α : Type} {src : Bytes} (a : α) : Sim src (Pure.pure a : Lx α) (Pure.pure a) := by
  intro l hl
  refine ⟨rfl, fun b l' h => ?_⟩
  cases h
  exact hl

theorem Sim.hang {α : Type} {src : Bytes} : Sim (α := α) src (fun _ => .hang) (fun _ => .hang) :=
  fun _ _ => ⟨rfl, fun _ _ h => by cases h⟩

theorem Sim.error {src : Bytes} : Sim src error error := fun _ _ => ⟨rfl, fun _ _ h => by cases h⟩

theorem Sim.next {src : Bytes} : Sim src next next := by
  intro l hl
  refine ⟨rfl, fun a l' h => ?_⟩
  unfold Locale.next at h
  split at h <;> cases h <;> exact hl

theorem Sim.rewind {src : Bytes} : Sim src rewind rewind := by
  intro l hl
  refine ⟨rfl, fun a l' h => ?_⟩
  unfold Locale.rewind at h
  split at h <;> cases h <;> exact hl

theorem Sim.current {src : Bytes} : Sim src current current := by
  intro l hl
  refine ⟨rfl, fun a l' h => ?_⟩
  cases h
  exact hl

theorem Sim.emit {src : Bytes} (c : Int) : Sim src (emit c) (emit c) := by
  intro l hl
  refine ⟨rfl, fun a l' h => ?_⟩
  cases h
  exact hl

theorem Sim.takeLoop {src : Bytes} (chars : Bytes) (n : Nat) : Sim src (takeLoop chars n) (takeLoop chars n) := by
  induction n with
  | zero => exact Sim.hang
  | succ n ih =>
    unfold Locale.takeLoop
    refine Sim.next.bind fun r => ?_
    split
    · exact ih
    · exact Sim.rewind

theorem Sim.take {src : Bytes} (chars : Bytes) : Sim src (take chars) (take chars) := fun l hl => Sim.takeLoop chars _ l hl

/-- One step through the text of a lexer function. -/
macro "simstep" : tactic => `(tactic| with_reducible first
  | exact Sim.pure _ | exact Sim.error | exact Sim.next | exact Sim.rewind | exact Sim.current | exact Sim.emit _
  | exact Sim.take _ | exact Sim.hang | assumption | refine Sim.bind ?_ fun _ => ?_ | split)

theorem Sim.peek {src : Bytes} : Sim src peek peek := by
  unfold Locale.peek
  repeat' simstep

theorem Sim.must {src : Bytes} {g g' : Lx Bool} (h : Sim src g g') : Sim src (must g) (must g') := by
  unfold Locale.must
  repeat' simstep

theorem Sim.grabWhitespace {src : Bytes} : Sim src grabWhitespace grabWhitespace := by
  unfold Locale.grabWhitespace
  repeat' simstep

theorem Sim.grabNewline {src : Bytes} : Sim src grabNewline grabNewline := by
  unfold Locale.grabNewline
  repeat' simstep

theorem Sim.rewinds {src : Bytes} (n : Nat) : Sim src (rewinds n) (rewinds n) := by
  induction n with
  | zero => exact Sim.pure _
  | succ n ih =>
    unfold Locale.rewinds
    exact Sim.rewind.bind fun _ => ih

theorem Sim.grabChar {src : Bytes} : Sim src grabChar grabChar := by
  unfold Locale.grabChar
  repeat' first | exact Sim.rewinds _ | simstep

theorem Sim.grabListLoop {src : Bytes} {g g' : Lx Bool} (h : Sim src g g') (n : Nat) (ok : Bool) :
    Sim src (grabListLoop g n ok) (grabListLoop g' n ok) := by
  induction n generalizing ok with
  | zero => exact Sim.hang
  | succ n ih =>
    unfold Locale.grabListLoop
    repeat' first | exact ih _ | simstep

theorem Sim.grabCharPair {src : Bytes} : Sim src grabCharPair grabCharPair := by
  unfold Locale.grabCharPair
  repeat' first | exact Sim.grabChar | simstep

theorem Sim.grabInt {src : Bytes} : Sim src grabInt grabInt := by
  unfold Locale.grabInt
  repeat' simstep

theorem Sim.msgLoop {src : Bytes} (n : Nat) : Sim src (msgLoop n) (msgLoop n) := by
  induction n with
  | zero => exact Sim.hang
  | succ n ih =>
    unfold Locale.msgLoop
    repeat' simstep

theorem Sim.grabMsg {src : Bytes} (n : Nat) : Sim src (grabMsg n) (grabMsg n) := by
  unfold Locale.grabMsg
  repeat' first | exact Sim.msgLoop _ | simstep

theorem decode_backslash {b : UInt8} {rest : Bytes} (h : (decodeRune b rest).1 = 92) : (92 : UInt8) ∈ b :: rest := by
  rcases decode_valid b rest with e | ⟨r, tail, -, e1, e2⟩
  · rw [e] at h; exact absurd h (by decide)
  · rw [e2] at h
    dsimp only at h
    subst h
    rw [e1]
    exact List.mem_append_left _ (by decide)

/-- A rune read is a backslash only if there is one in the text. -/
theorem next_not_backslash {src : Bytes} (h : (92 : UInt8) ∉ src) {l l' : L} {r : Option Nat} (hl : l.source = src)
    (hr : next l = .ok r l') : r ≠ some 92 := by
  unfold next at hr
  split at hr
  · cases hr; simp
  · rename_i b rest e
    cases hr
    intro hc
    simp only [Option.some.injEq] at hc
    have := decode_backslash hc
    exact h (hl ▸ List.mem_of_mem_drop (e ▸ this))

theorem Sim.stringLoop {src : Bytes} (h : (92 : UInt8) ∉ src) (esc esc' : Nat → Nat) (n : Nat) :
    Sim src (stringLoop esc n false) (stringLoop esc' n false) := by
  induction n with
  | zero => exact Sim.hang
  | succ n ih =>
    intro l hl
    obtain ⟨-, hk⟩ := Sim.next l hl
    unfold Locale.stringLoop
    show Lx.bind _ _ l = Lx.bind _ _ l ∧ ∀ a l', Lx.bind _ _ l = .ok a l' → _
    simp only [Lx.bind]
    cases e : Locale.next l with
    | panic p => exact ⟨rfl, fun _ _ h => by cases h⟩
    | hang => exact ⟨rfl, fun _ _ h => by cases h⟩
    | ok r l1 =>
      have hr := next_not_backslash h hl e
      simp only [Bool.false_eq_true, if_false, if_neg hr]
      have : Sim src (if r = some 34 then (do Locale.emit Tm.DQUOTE.code; Pure.pure true : Lx Bool)
          else if r = some 10 then (do Locale.error; Pure.pure false)
          else (do Locale.emit Tm.CHAR.code; Locale.stringLoop esc n false))
          (if r = some 34 then (do Locale.emit Tm.DQUOTE.code; Pure.pure true : Lx Bool)
          else if r = some 10 then (do Locale.error; Pure.pure false)
          else (do Locale.emit Tm.CHAR.code; Locale.stringLoop esc' n false)) := by
        repeat' simstep
      exact this l1 (hk r l1 e)

theorem Sim.grabString {src : Bytes} (h : (92 : UInt8) ∉ src) (esc esc' : Nat → Nat) (n : Nat) :
    Sim src (grabString esc n) (grabString esc' n) := by
  unfold Locale.grabString
  repeat' first | exact Sim.stringLoop h esc esc' n | exact Sim.peek | simstep

theorem Sim.grab {src : Bytes} (h : (92 : UInt8) ∉ src) (esc esc' : Nat → Nat) (n : Nat) (g : Grab) :
    Sim src (g.run esc n) (g.run esc' n) := by
  cases g with
  | charList => exact Sim.grabListLoop Sim.grabChar n false
  | stringList => exact Sim.grabListLoop (Sim.grabString h esc esc' n) n false
  | charPairList => exact Sim.grabListLoop Sim.grabCharPair n false
  | string => exact Sim.grabString h esc esc' n
  | int => exact Sim.grabInt
  | intList => exact Sim.grabListLoop Sim.grabInt n false
  | msg => exact Sim.grabMsg n

theorem Sim.call {src : Bytes} (h : (92 : UInt8) ∉ src) (esc esc' : Nat → Nat) (n : Nat) (st : St) :
    Sim src (st.call esc n) (st.call esc' n) := by
  have hg := Sim.grab h esc esc' n
  have hs := Sim.grabString h esc esc' n
  have hw := Sim.grabWhitespace (src := src)
  have hn := Sim.grabNewline (src := src)
  have hc := Sim.grabChar (src := src)
  cases st with
  | category =>
    show Sim src sCategory sCategory
    unfold sCategory
    repeat' first | exact Sim.must (by assumption) | simstep
  | generic c =>
    show Sim src (sGeneric esc n c) (sGeneric esc' n c)
    unfold sGeneric
    repeat' first | exact Sim.must (by assumption) | exact Sim.must (hg _) | simstep
  | collate =>
    show Sim src (sCollate esc n) (sCollate esc' n)
    unfold sCollate
    repeat' first | exact Sim.must (by assumption) | simstep
  | orderStart =>
    show Sim src sOrderStart sOrderStart
    unfold sOrderStart
    repeat' first | exact Sim.must (by assumption) | simstep
  | order =>
    show Sim src sOrder sOrder
    unfold sOrder
    repeat' first | exact Sim.must (by assumption) | simstep

theorem Sim.runLoop {src : Bytes} (h : (92 : UInt8) ∉ src) (esc esc' : Nat → Nat) (n k : Nat) (st : St) :
    Sim src (runLoop esc n k st) (runLoop esc' n k st) := by
  induction k generalizing st with
  | zero => exact Sim.hang
  | succ k ih =>
    unfold Locale.runLoop
    refine (Sim.call h esc esc' n st).bind fun o => ?_
    cases o with
    | none => exact Sim.pure _
    | some st => exact ih st

theorem cleaned_escape {c e : Nat} {lines : List Bytes} {out : Bytes} {e' : Nat} (h : Cleaned c e lines out e') :
    e' = e ∨ ∃ l ∈ lines, Sets b!"escape_char" l e' := by
  induction h with
  | done => exact .inl rfl
  | comment c e l rest out e' hc h ih => exact ih.imp_right fun ⟨x, hx, hs⟩ => ⟨x, by simp [hx], hs⟩
  | escape c e r l rest out e' hc hs h ih =>
    rcases ih with rfl | ⟨x, hx, hs⟩
    · exact .inr ⟨l, by simp, hs⟩
    · exact .inr ⟨x, by simp [hx], hs⟩
  | commentChar c e r l conts rest line out e' hc hs hj h ih => exact ih.imp_right fun ⟨x, hx, hs⟩ => ⟨x, by simp [hx], hs⟩
  | text c e l conts rest line out e' hc hs hj h ih => exact ih.imp_right fun ⟨x, hx, hs⟩ => ⟨x, by simp [hx], hs⟩

theorem lexText_esc {src : Bytes} (h : (92 : UInt8) ∉ src) (esc esc' : Nat → Nat) (n : Nat) : lexText esc n src = lexText esc' n src :=
  (Sim.runLoop h esc esc' n n .category { source := src } rfl).1

/-! ## The properties -/

/-- **C100**, first part that holds. If no file sets the escape character, making other lexers does not matter. -/
theorem C100_standard_partial (n : Nat) (input : Bytes) (others : List Bytes) (esc : Nat → Nat) (h : NoEscapeChar input)
    (ho : ∀ o ∈ others, NoEscapeChar o) (hs : MaySee input others esc) : newLexerShared esc n input = newLexer n input := by
  obtain ⟨text, e, h1, k, h2, h3⟩ := hs
  have he : e = 92 := by
    rcases cleaned_escape ((C55_cleans input text e).mp h1) with h | ⟨l, hl, hs⟩
    · exact h
    · exact absurd hs (h l hl e)
  subst he
  have : esc = fun _ => 92 := by
    funext p
    by_cases hp : p < k
    · exact h2 p hp
    · obtain ⟨o, ho', ha⟩ := h3 p (by omega)
      rcases ha with ha | ⟨l, hl, hs⟩
      · exact ha
      · exact absurd hs (ho o ho' l hl _)
  subst this
  simp only [newLexerShared, newLexer, h1]
  rfl

/-- **C100**, second part that holds. If the text has no backslash left after comments are removed, it does not matter
either, whatever the variable holds at any time. -/
theorem C100_no_backslash_partial (n : Nat) (input text : Bytes) (e : Nat) (esc : Nat → Nat) (h : removeComments input = .ok (text, e))
    (hb : (92 : UInt8) ∉ text) : newLexerShared esc n input = newLexer n input := by
  simp only [newLexerShared, newLexer, h, lexText_esc hb esc (fun _ => e) n]
  rfl

/-- A file with an escape character of its own, used before that character in a string. -/
def slashFile : Bytes := b!"escape_char /\nLC_TIME\nd_fmt \"\\/\"\nEND LC_TIME\n"

/-- **C100**, refuted: making a lexer for any other file, or for the same file again, can crash the lexer of a file that
is fine alone. -/
theorem C100_counterexample (other : Bytes) : ∃ esc, MaySee slashFile [other] esc ∧
    (∃ toks l, newLexer 20 slashFile = .ok toks l ∧ parse false toks {} = .ok (0, {})) ∧ newLexerShared esc 20 slashFile = .panic .explicit := by
  refine ⟨fun _ => 92, ⟨b!"LC_TIME\nd_fmt \"\\/\"\nEND LC_TIME\n\n", 47, by decide +kernel, 0, fun p hp => absurd hp (Nat.not_lt_zero p),
    fun p _ => ⟨other, by simp, .inl rfl⟩⟩, ?_, by decide +kernel⟩
  have : newLexer 20 slashFile ≠ .hang ∧ (match newLexer 20 slashFile with | .ok toks _ => decide (parse false toks {} = .ok (0, {})) | _ => false) = true := by
    decide +kernel
  cases h : newLexer 20 slashFile with
  | ok toks l => exact ⟨toks, l, rfl, by simpa [h] using this⟩
  | panic p => simp [h] at this
  | hang => simp [h] at this

/-- Two files for the hypotheses of the first. -/
def commaFile : Bytes := b!"LC_TIME\nd_fmt \"%d\\,\"\nEND LC_TIME\n"

/-- The second is made while the lexer of the first is at byte 12. -/
example : MaySee commaFile [commaFile] (fun _ => 92) ∧ NoEscapeChar commaFile := by
  refine ⟨⟨commaFile ++ [nl], 92, by decide +kernel, 12, fun _ _ => rfl, fun p _ => ⟨commaFile, by simp, .inl rfl⟩⟩, ?_⟩
  intro l hl e hs
  have : ∀ l ∈ split commaFile [nl], ¬ b!"escape_char" <+: l := by decide +kernel
  exact this l hl hs.1

example : ∃ text, removeComments b!"escape_char /\nLC_TIME\nd_fmt \"%d\"\nEND /\nLC_TIME\n" = .ok (text, 47) ∧ (92 : UInt8) ∉ text :=
  ⟨b!"LC_TIME\nd_fmt \"%d\"\nEND LC_TIME\n\n", by decide +kernel, by decide⟩

end Locale
