import Verif.Ed.TypedRun
import Verif.Ed.LongLines
import Verif.Ed.QuitProps
import Verif.Ed.CurrentProps

/-! # The editor used by a program: `NewEditor`, `ProcessCommands` more than once, `Quit` (C115) -/

namespace Ed
open Go

/-- ed.go:32-36 `NewEditor`: a buffer over an empty reader. Its arguments are not used. -/
def newEditor (fs : FS) : State := { pt := Txt.newPieceTable [] false 0, filename := [], currentLine := 0, fs := fs, writes := 0 }

/-- ed.go:38-40 `unsaved`. -/
def unsaved (_ : State) : Bool := false

/-- ed.go:199-205 `Quit`: the text of the error, if there is one. -/
def quit (s : State) (force : Bool) : Option Bytes := if !force && unsaved s then some b!"Unsaved, can't quit" else none

/-- ed.go:208-256 `ProcessCommands` on the state `s`, up to the moment when it has returned: it begins at the last line, then
the two goroutines run. -/
inductive Processes (env : Env) (errText : Bytes → Bytes) (s : State) (input : Bytes) (how : End) (st : Sys) : Prop
  | mk {s1 : State} (begins : begin_ s = .ok s1) (runs : Steps env (initial errText s1 input) st) (ends : st.cons.ended = some how)

/-! ## Proofs -/

theorem newEditor_shows (fs : FS) : Shows (newEditor fs) [] := by
  have r : Txt.Reachable (newEditor fs).pt := .new [] false 0 (Nat.le_refl _)
  refine ⟨r, ?_⟩
  rw [Txt.string_wf r.good.toWF]
  simp [newEditor, Txt.newPieceTable, Txt.content, Txt.Piece.text, unlines]

theorem clean_nil : Clean [] := ⟨by simp, by simp⟩

theorem program_lines (errText : Bytes → Bytes) (cs : List TCmd)
    (ht : ∀ c ∈ cs, c.WF) (hp : ∀ l ∈ cs.flatMap TCmd.typed, PlainLine l) (quits : Bool) :
    program errText (unlines (cs.flatMap TCmd.typed ++ lastLine quits)) = (cs.map TCmd.parsed ++ lastCommand quits).flatMap evs := by
  have e2 : scanLines (unlines (cs.flatMap TCmd.typed ++ lastLine quits)) = (cs.flatMap TCmd.typed ++ lastLine quits, false) := by
    refine scanLines_unlines _ ?_
    intro l hl
    simp only [List.mem_append] at hl
    rcases hl with hl | hl
    · exact hp l hl
    · cases quits
      · cases hl
      · simp only [lastLine, if_true, List.mem_cons, List.not_mem_nil, or_false] at hl
        subst hl
        exact plain_ascii _ (by decide) (by decide) (by decide)
  have p3 : parseCommands (b!"q" ++ [nl]) = some [{ typ := .quit }] := by decide +kernel
  have v3 : eventsOf errText b!"q" = [.send { typ := .quit }] := by rw [eventsOf_some p3]; rfl
  have g : groups none (lastLine quits) = lastLine quits := by cases quits <;> decide
  rw [program, texts_short (by rw [e2]), e2]
  simp only
  rw [groups_tcmds cs ht, g, List.flatMap_append, events_tcmds errText cs ht]
  have w3 : evs { typ := .quit } = [.send { typ := .quit }] := rfl
  cases quits
  · simp [lastLine, lastCommand, scanError]
  · simp [lastLine, lastCommand, scanError, v3, w3]

/-- **C115** `ProcessCommands` on an editor with any buffer: it does what the reference editor does that has these lines, this
file name and these files and begins at the last line, and leaves an editor for which this holds again. -/
theorem C115_any_buffer (env : Env) (hsave : Saves env) (errText : Bytes → Bytes) (s : State) (st : RState) (ag : Agrees s st)
    (cs : List TCmd) (ht : ∀ c ∈ cs, c.WF) (hp : ∀ l ∈ cs.flatMap TCmd.typed, PlainLine l) (quits : Bool) (st' : RState) (os : List Bytes)
    (hses : Session env.compile env.openErr cs { st with cur := st.lines.length } st' os) (sys : Sys) (how : End)
    (hr : Processes env errText s (unlines (cs.flatMap TCmd.typed ++ lastLine quits)) how sys) :
    how = (if quits then .quit else .finished) ∧ results sys.out = os.map (· ++ [nl]) ∧ errors sys.out = [] ∧ Agrees sys.ed st' := by
  obtain ⟨hb, hs, he⟩ := hr
  rw [C84_begins ag.shows_ ag.clean] at hb
  cases hb
  obtain ⟨h1, h2, _⟩ := C69_schedule_independent env errText _ _ sys how hs he
  rw [program_lines errText cs ht hp quits] at h1 h2
  rw [reports_evs] at h2
  rw [sends_evs] at h1
  have ag1 : Agrees { s with currentLine := st.lines.length } { st with cur := st.lines.length } :=
    ⟨⟨ag.shows_.reach, ag.shows_.text⟩, ag.clean, rfl, ag.len, Nat.le_of_lt ag.len, ag.named, ag.files⟩
  obtain ⟨s2, ms, r2, o2, ag2⟩ := session_refines env hsave ag1 ht hses
  have hseq := r2.sequential (lastCommand quits)
  have hlast : Ed.sequential env s2 (lastCommand quits) = (if quits then .quit else .finished, s2, []) := by
    cases quits <;> simp [lastCommand, Ed.sequential]
  rw [hseq, hlast] at h1
  simp only [Prod.mk.injEq, List.append_nil] at h1
  obtain ⟨rfl, rfl, hres⟩ := h1
  exact ⟨rfl, by rw [← hres, o2], by simpa using h2, ag2⟩

/-- **C115** An editor made by `NewEditor` has the empty buffer and no file name. -/
theorem C115_new (fs : FS) : Agrees (newEditor fs) ⟨[], 0, [], fs⟩ :=
  ⟨newEditor_shows fs, clean_nil, rfl, by simp, by simp, rfl, rfl⟩

/-- **C115** So a program can make an editor and give it commands in several calls; each goes on with the buffer, the name and
the files the one before has left, at the last line. Here two calls. -/
theorem C115_session (env : Env) (hsave : Saves env) (errText : Bytes → Bytes) (fs : FS)
    (cs1 cs2 : List TCmd) (ht1 : ∀ c ∈ cs1, c.WF) (ht2 : ∀ c ∈ cs2, c.WF) (hp1 : ∀ l ∈ cs1.flatMap TCmd.typed, PlainLine l)
    (hp2 : ∀ l ∈ cs2.flatMap TCmd.typed, PlainLine l) (q1 q2 : Bool) (st1 st2 : RState) (os1 os2 : List Bytes)
    (hses1 : Session env.compile env.openErr cs1 ⟨[], 0, [], fs⟩ st1 os1)
    (hses2 : Session env.compile env.openErr cs2 { st1 with cur := st1.lines.length } st2 os2)
    (sys1 sys2 : Sys) (how1 how2 : End)
    (hr1 : Processes env errText (newEditor fs) (unlines (cs1.flatMap TCmd.typed ++ lastLine q1)) how1 sys1)
    (hr2 : Processes env errText sys1.ed (unlines (cs2.flatMap TCmd.typed ++ lastLine q2)) how2 sys2) :
    results sys1.out = os1.map (· ++ [nl]) ∧ results sys2.out = os2.map (· ++ [nl]) ∧ errors sys1.out = [] ∧ errors sys2.out = [] ∧
    how2 = (if q2 then .quit else .finished) ∧ sys2.ed.fs = st2.files ∧ sys2.ed.pt.string = .ok (unlines st2.lines) := by
  obtain ⟨-, a1, a2, a3⟩ := C115_any_buffer env hsave errText _ _ (C115_new fs) cs1 ht1 hp1 q1 st1 os1 hses1 sys1 how1 hr1
  obtain ⟨b0, b1, b2, b3⟩ := C115_any_buffer env hsave errText _ _ a3 cs2 ht2 hp2 q2 st2 os2 hses2 sys2 how2 hr2
  exact ⟨a1, b1, a2, b2, b0, b3.files, b3.shows_.text⟩

/-- Text for a new editor. -/
def demoFirst : List TCmd := [⟨.one (.lit b!"0") [], .append [b!"one", b!"two"]⟩, ⟨.one (.lit b!"1") [], .append [b!"more"]⟩]

/-- A second call: print everything. -/
def demoSecond : List TCmd := [⟨.all false, .print⟩]

/-- Such calls can be made: two texts are added, one after the other, and printed. -/
example (errText : Bytes → Bytes) (fs : FS) : ∃ sys1 sys2,
    Processes demoEnv errText (newEditor fs) b!"0a\none\ntwo\n.\n1a\nmore\n.\n" .finished sys1 ∧
    Processes demoEnv errText sys1.ed b!",p\nq\n" .quit sys2 ∧ results sys2.out = [b!"one\nmore\ntwo\n"] := by
  have ok : ∀ ls : List Bytes, (∀ l ∈ ls, nl ∉ l ∧ l.getLast? ≠ some cr ∧ l.length < 100) → ls.getLast? ≠ some [] → Clean ls := clean_of
  have hses1 : Session demoEnv.compile demoEnv.openErr demoFirst ⟨[], 0, [], fs⟩ ⟨[b!"one", b!"more", b!"two"], 3, [], fs⟩ [[], []] := by
    refine .cons (.append (pre := []) (post := []) rfl rfl ⟨by decide, plain_of _ (by decide)⟩) (ok [b!"one", b!"two"] (by decide) (by decide)) (show 2 < 2 ^ 62 by decide) ?_
    exact .cons (.append (pre := [b!"one"]) (post := [b!"two"]) rfl rfl ⟨by decide, plain_of _ (by decide)⟩) (ok [b!"one", b!"more", b!"two"] (by decide) (by decide)) (show 3 < 2 ^ 62 by decide) .nil
  have hses2 : Session demoEnv.compile demoEnv.openErr demoSecond ⟨[b!"one", b!"more", b!"two"], 3, [], fs⟩ ⟨[b!"one", b!"more", b!"two"], 3, [], fs⟩ [b!"one\nmore\ntwo"] :=
    .cons (.print (a := 1) (b := 3) rfl rfl (show 1 ≤ 1 by decide) (show 1 ≤ 3 by decide) (show 3 ≤ 3 by decide)) (ok [b!"one", b!"more", b!"two"] (by decide) (by decide)) (show 3 < 2 ^ 62 by decide) .nil
  have hb1 := C84_begins (newEditor_shows fs) clean_nil
  obtain ⟨sys1, how1, hs1, he1⟩ := C69_stops demoEnv _ (initial errText { newEditor fs with currentLine := ([] : List Bytes).length }
    (unlines (demoFirst.flatMap TCmd.typed ++ lastLine false))) (Nat.le_refl _)
  have hw1 : ∀ c ∈ demoFirst, c.WF := by
    intro c hc
    simp only [demoFirst, List.mem_cons, List.not_mem_nil, or_false] at hc
    rcases hc with rfl | rfl
    · exact ⟨⟨⟨by decide, by decide⟩, by simp [Blanks]⟩, trivial, trivial, ⟨⟨by decide, by decide, by decide, by decide⟩, by decide⟩⟩
    · exact ⟨⟨⟨by decide, by decide⟩, by simp [Blanks]⟩, trivial, trivial, ⟨⟨by decide, by decide, by decide, by decide⟩, by decide⟩⟩
  have hw2 : ∀ c ∈ demoSecond, c.WF := by
    intro c hc
    simp only [demoSecond, List.mem_cons, List.not_mem_nil, or_false] at hc
    subst hc
    exact ⟨trivial, trivial⟩
  have hr1 : Processes demoEnv errText (newEditor fs) (unlines (demoFirst.flatMap TCmd.typed ++ lastLine false)) how1 sys1 := ⟨hb1, hs1, he1⟩
  obtain ⟨a0, -, -, a3⟩ := C115_any_buffer demoEnv (fun _ => ⟨rfl, rfl, rfl⟩) errText _ _ (C115_new fs) demoFirst hw1 (plain_of _ (by decide)) false _ _ hses1 sys1 how1 hr1
  obtain ⟨sys2, how2, hs2, he2⟩ := C69_stops demoEnv _ (initial errText { sys1.ed with currentLine := 3 }
    (unlines (demoSecond.flatMap TCmd.typed ++ lastLine true))) (Nat.le_refl _)
  have hr2 : Processes demoEnv errText sys1.ed (unlines (demoSecond.flatMap TCmd.typed ++ lastLine true)) how2 sys2 :=
    ⟨C84_begins a3.shows_ a3.clean, hs2, he2⟩
  obtain ⟨b0, b1, -, -⟩ := C115_any_buffer demoEnv (fun _ => ⟨rfl, rfl, rfl⟩) errText _ _ a3 demoSecond hw2 (plain_of _ (by decide)) true _ _ hses2 sys2 how2 hr2
  subst a0 b0
  exact ⟨sys1, sys2, hr1, hr2, b1⟩

/-- **C115** (the expectation fails) `Quit` never refuses, whatever has been done to the buffer and not saved. -/
theorem C115_quit (s : State) (force : Bool) : quit s force = none := by simp [quit, unsaved]

end Ed
