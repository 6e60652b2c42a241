import Verif.Go.Sink
import Verif.Cat.Arrival
import Verif.Cksum.Model
import Verif.Cmp.Model
import Verif.Diff.Cmd
import Verif.Head.Model
import Verif.Kill.Model
import Verif.Locale.Env
import Verif.TSort.Model

/-!
# The commands when standard output does not take everything (C124)

The functions that print, once more, with `Sink` for standard output. Standard error takes everything.
-/

open Go

/-! ## Model -/

/-- cksum main.go:14-40: `runAll` (Model.lean) with `fmt.Printf` of main.go:29 as a call that may fail. -/
def Cksum.runAllTo (ans : Answers) (fs : FS) (er : Errors) : Sink → (stdin : Bytes) → List Bytes → Sink × Bytes × Nat
  | k, _, [] => (k, [], 0)
  | k, stdin, f :: rest =>
    if f = b!"-" then
      match er.readErr f with
      | some e => (k, b!"couldn't read input " ++ e, 1)
      | none => runAllTo ans fs er (k.print ans (line stdin f)) [] rest
    else
      match fs f with
      | none => (k, b!"couldn't open file " ++ er.openErr f, 1)
      | some s =>
        match er.readErr f with
        | some e => (k, b!"couldn't read input " ++ e, 1)
        | none => runAllTo ans fs er (k.print ans (line s f)) stdin rest

/-- A process that has ended, from its standard output. -/
def left (r : Sink × Bytes × Nat) : Out := { stdout := r.1.out, stderr := r.2.1, exit := r.2.2 }

/-- cksum main.go:32-40 `main`. -/
def Cksum.mainTo (ans : Answers) (fs : FS) (er : Errors) (stdin : Bytes) (args : List Bytes) : Out :=
  left (runAllTo ans fs er {} stdin (if args = [] then [b!"-"] else args))

/-- cmp main.go:67-73: the report; with -s nothing is called. -/
def Cmp.reportTo (ans : Answers) (s : Settings) (k : Sink) (i l : Nat) (b1 b2 : UInt8) : Sink :=
  if s.silent then k else k.print ans (report s i l b1 b2)

/-- cmp main.go:60-103: the loop. -/
def Cmp.loopTo (ans : Answers) (s : Settings) (end1 end2 : Option Bytes) : Sink → (d1 d2 : Bytes) → (i l : Nat) → Sink × Bytes × Nat
  | k, b1 :: d1, b2 :: d2, i, l =>
    let k1 := if b1 ≠ b2 then reportTo ans s k i l b1 b2 else k
    if b1 ≠ b2 ∧ ¬ s.writeAll then (k1, [], 1)
    else loopTo ans s end1 end2 k1 d1 d2 (i + 1) (if b1 = nl then l + 1 else l)
  | k, [], [], _, _ => (k, (atEnd s (some end1) (some end2)).stderr, (atEnd s (some end1) (some end2)).exit)
  | k, [], _ :: _, _, _ => (k, (atEnd s (some end1) none).stderr, (atEnd s (some end1) none).exit)
  | k, _ :: _, [], _, _ => (k, (atEnd s none (some end2)).stderr, (atEnd s none (some end2)).exit)

/-- cmp main.go:46-118 `cmp` and `main`. -/
def Cmp.mainTo (ans : Answers) (w : World) (args : List Bytes) : Out :=
  match parseSettings args with
  | .error e => fail e
  | .ok s =>
    match openFile w s.file1 with
    | none => fail (b!"could not open " ++ s.file1)
    | some f1 =>
      match openFile w s.file2 with
      | none => fail (b!"could not open " ++ s.file2)
      | some f2 =>
        if s.file1 = b!"-" ∧ s.file2 = b!"-" then
          left (loopTo ans s w.shared.1.err w.shared.2.err {} w.shared.1.data w.shared.2.data 1 1)
        else left (loopTo ans s f1.err f2.err {} f1.data f2.data 1 1)

/-- diff main.go:97-109 `main`. -/
def Diff.mainTo (ans : Answers) (p : Nat → Bool) (fs : FS) (args : List Bytes) : Out :=
  match parseSettings args with
  | .error e => left (Sink.print ans {} (b!"Oh heck an error: " ++ e.text p ++ [nl]), [], 1)
  | .ok s => left (Sink.print ans {} (format (diff (readLines fs s.file1) (readLines fs s.file2)) ++ [nl]), [], 0)

/-- locale main.go:6-8 `main`. -/
def Locale.mainTo (ans : Answers) (env : Bytes → Bytes) : Out := left (Sink.print ans {} (main env), [], 0)

/-- head main.go:67-72: the loop over the scanner. -/
def Head.scanLoopTo (ans : Answers) (n : Int) (fails early : Bool) : Sink → (toks : List Bytes) → (j : Nat) → Sink × Bool
  | k, [], _ => (k, fails)
  | k, t :: ts, j => if (j : Int) < n then scanLoopTo ans n fails early (k.print ans (t ++ [nl])) ts (j + 1) else (k, early && ts.isEmpty)

/-- head main.go:66-75: one file. -/
def Head.scanFileTo (ans : Answers) (n : Int) (k : Sink) (f : Stream) : Sink × Bool :=
  scanLoopTo ans n ((scanLines f.data).2 || f.err) (!(scanLines f.data).2 && f.err && unterminated f.data) k (scanLines f.data).1 0

/-- head main.go:50-55: the banner, by one or two calls. -/
def Head.bannerTo (ans : Answers) (many : Bool) (i : Nat) (k : Sink) (name : Bytes) : Sink :=
  if many then (if i > 0 then k.print ans b!"\n" else k).print ans (b!"==> " ++ name ++ b!" <==\n") else k

/-- head main.go:49-76: the loop of `process`. -/
def Head.processLoopTo (ans : Answers) (w : World) (n : Int) (many : Bool) : Sink → (i : Nat) → List Bytes → Sink × Option Panic
  | k, _, [] => (k, none)
  | k, i, f :: rest =>
    let k1 := bannerTo ans many i k f
    match openAt w i f with
    | none => (k1, some .explicit)
    | some c =>
      let r := scanFileTo ans n k1 c
      if r.2 then (r.1, some .explicit) else processLoopTo ans w n many r.1 (i + 1) rest

/-- head main.go:80-86 `main`. -/
def Head.mainTo (ans : Answers) (w : World) (args : List Bytes) : Result :=
  match parseSettings args with
  | .error p => ⟨[], some p⟩
  | .ok s =>
    let r := processLoopTo ans w s.numLines (s.filenames.length > 1) {} 0 s.filenames
    ⟨r.1.out, r.2⟩

/-- tsort main.go:43-45: the loop that prints. -/
def TSort.printTo (ans : Answers) : Sink → List Bytes → Sink
  | k, [] => k
  | k, item :: rest => printTo ans (k.print ans (item ++ [nl])) rest

/-- tsort main.go:17-51 `run`. -/
def TSort.RunTo (ans : Answers) (input : Bytes) (out : Out) : Prop :=
  let (ws, tooLong) := scanWords input
  match feed [] ws with
  | .error w => out = die b!"unmatched word!" w
  | .ok m =>
    if tooLong then out = die b!"scan error!" b!"bufio.Scanner: token too long"
    else ∃ r m', Order m r m' ∧
      match r with
      | none => out = die b!"sort error!" b!"Hmm. Still items left. Ordering impossible?"
      | some l => out = left (printTo ans {} l, [], 0)

/-- kill main.go:65-76: after the arguments; the signal is sent after the first call. -/
def Kill.mainTo (ans : Answers) (w : World) (args : List Bytes) : Result :=
  match parseLoop w {} args with
  | .error (.error msg) => ⟨[], msg, 2, [], none⟩
  | .error (.panic p) => ⟨[], [], 2, [], some p⟩
  | .ok s =>
    let k := Sink.print ans {} (announce s)
    match w.findErr s.pid with
    | some e => ⟨k.out, b!"couldn't find process with PID of " ++ itoa s.pid ++ b!": " ++ e ++ b!"\n", 2, [], none⟩
    | none =>
      if s.pid = 0 ∨ s.pid = -1 then ⟨k.out, notSent s (w.refused s.pid), 2, [], none⟩
      else
        match w.killErr s.pid with
        | some e => ⟨k.out, notSent s e, 2, [(s.pid, 9)], none⟩
        | none => ⟨(k.print ans b!"vim-go\n").out, [], 0, [(s.pid, 9)], none⟩

/-- `io.Copy` (package io, `copyBuffer`) into standard output: each piece read is written with one call; an error of `Write` ends the
copying, also if there is more to read. (Simplification as in Drain.lean.) -/
def Cat.copyTo (ans : Answers) : (rounds : Nat) → Sink → Source → Sink × Option Bytes × Source
  | 0, k, r => (k, none, r)
  | n + 1, k, r =>
    match r.read 32768 with
    | (x, e, r1) =>
      let w := if x = [] then (k, none) else k.write ans x
      match w.2 with
      | some m => (w.1, some m, r1)
      | none =>
        match e with
        | none => copyTo ans n w.1 r1
        | some .eof => (w.1, none, r1)
        | some e => (w.1, some e.text, r1)

/-- cat main.go:12-32 `writeFile` and `write`. -/
def Cat.writeFileTo (ans : Answers) (file : Bytes → Except Bytes Source) (k : Sink) (stdin : Source) (name : Bytes) : Sink × Option Bytes × Source :=
  if name = b!"-" then copyTo ans (stdin.bytes.length + 1) k stdin
  else
    match file name with
    | .error e => (k, some e, stdin)
    | .ok f =>
      let x := copyTo ans (f.bytes.length + 1) k f
      (x.1, x.2.1, stdin)

/-- cat main.go:48-54: the loop over the operands. -/
def Cat.loopTo (ans : Answers) (file : Bytes → Except Bytes Source) : Sink → (stdin : Source) → List Bytes → Sink × Bytes × Nat
  | k, _, [] => (k, [], 0)
  | k, stdin, f :: rest =>
    match writeFileTo ans file k stdin f with
    | (k1, some e, _) => (k1, b!"Error encountered while attempting to read from " ++ f ++ b!": " ++ e ++ b!"\n", 0)
    | (k1, none, stdin') => loopTo ans file k1 stdin' rest

/-- cat main.go:34-55 `main`. -/
def Cat.mainTo (ans : Answers) (file : Bytes → Except Bytes Source) (stdin : Source) (args : List Bytes) : Out :=
  left (loopTo ans file {} stdin (operands args))

/-! ## Specification -/

/-- The program takes no notice: it leaves what it would have left, but of its output there is only what was taken of each of its
calls. -/
def Unnoticed (ans : Answers) (all : Out) (calls : List Bytes) (r : Out) : Prop :=
  calls.flatten = all.stdout ∧ r.stdout = taken ans 0 calls ∧ r.stderr = all.stderr ∧ r.exit = all.exit

/-! ## Proofs -/

/-- **C124** If everything is taken, a program that takes no notice leaves what it was to leave. -/
theorem C124_willing {ans : Answers} {all r : Out} {calls : List Bytes} (hw : ans.Willing) (h : Unnoticed ans all calls r) : r = all := by
  obtain ⟨h1, h2, h3, h4⟩ := h
  rw [taken_willing hw, h1] at h2
  cases r; cases all
  simp_all

theorem left_after (ans : Answers) (calls : List Bytes) (e : Bytes) (c : Nat) :
    left (Sink.after ans {} calls, e, c) = { stdout := taken ans 0 calls, stderr := e, exit := c } := by simp [left, Sink.after]

namespace Cksum

theorem runAllTo_eq (fs : FS) (er : Errors) (args : List Bytes) : ∀ (stdin : Bytes), ∃ calls, calls.flatten = (runAll fs er stdin args).stdout ∧
    ∀ ans k, runAllTo ans fs er k stdin args = (k.after ans calls, (runAll fs er stdin args).stderr, (runAll fs er stdin args).exit) := by
  induction args with
  | nil => intro stdin; exact ⟨[], rfl, fun ans k => by rw [after_nil]; rfl⟩
  | cons f rest ih =>
    intro stdin
    simp only [runAll, runAllTo]
    by_cases hf : f = b!"-"
    · simp only [if_pos hf]
      cases er.readErr f with
      | some e => exact ⟨[], rfl, fun ans k => by rw [after_nil]⟩
      | none =>
        obtain ⟨calls, h1, h2⟩ := ih []
        exact ⟨line stdin f :: calls, by simp [h1], fun ans k => by simp only [h2, print_after]⟩
    · simp only [if_neg hf]
      cases fs f with
      | none => exact ⟨[], rfl, fun ans k => by rw [after_nil]⟩
      | some s =>
        cases er.readErr f with
        | some e => exact ⟨[], rfl, fun ans k => by rw [after_nil]⟩
        | none =>
          obtain ⟨calls, h1, h2⟩ := ih stdin
          exact ⟨line s f :: calls, by simp [h1], fun ans k => by simp only [h2, print_after]⟩

/-- **C124** (the expectation fails) `cksum` does not notice that its output is not taken. -/
theorem C124_cksum (fs : FS) (er : Errors) (stdin : Bytes) (args : List Bytes) :
    ∃ calls, ∀ ans, Unnoticed ans (main fs er stdin args) calls (mainTo ans fs er stdin args) := by
  obtain ⟨calls, h1, h2⟩ := runAllTo_eq fs er (if args = [] then [b!"-"] else args) stdin
  exact ⟨calls, fun ans => ⟨h1, by rw [mainTo, h2, left_after], by rw [mainTo, h2, left_after]; rfl, by rw [mainTo, h2, left_after]; rfl⟩⟩

end Cksum

namespace Cmp

theorem loopTo_eq (s : Settings) (end1 end2 : Option Bytes) : ∀ (d1 d2 : Bytes) (i l : Nat), ∃ calls, calls.flatten = (loop s end1 end2 d1 d2 i l).stdout ∧
    ∀ ans k, loopTo ans s end1 end2 k d1 d2 i l = (k.after ans calls, (loop s end1 end2 d1 d2 i l).stderr, (loop s end1 end2 d1 d2 i l).exit) := by
  have hend : ∀ e1 e2, (atEnd s e1 e2).stdout = [] := by
    intro e1 e2
    unfold atEnd fail
    (repeat' split) <;> rfl
  have rep : ∀ i l b1 b2, ∃ c : List Bytes, c.flatten = report s i l b1 b2 ∧ ∀ ans k, reportTo ans s k i l b1 b2 = k.after ans c := by
    intro i l b1 b2
    by_cases hs : s.silent = true
    · exact ⟨[], by simp [report, hs], fun ans k => by rw [reportTo, if_pos hs, after_nil]⟩
    · exact ⟨[report s i l b1 b2], by simp, fun ans k => by rw [reportTo, if_neg hs, print_eq]⟩
  intro d1
  induction d1 with
  | nil =>
    intro d2 i l
    cases d2 with
    | nil => exact ⟨[], by simp [loop, hend], fun ans k => by rw [after_nil]; rfl⟩
    | cons b d2 => exact ⟨[], by simp [loop, hend], fun ans k => by rw [after_nil]; rfl⟩
  | cons b1 d1 ih =>
    intro d2 i l
    cases d2 with
    | nil => exact ⟨[], by simp [loop, hend], fun ans k => by rw [after_nil]; rfl⟩
    | cons b2 d2 =>
      obtain ⟨c, c1, c2⟩ := rep i l b1 b2
      obtain ⟨cs, h1, h2⟩ := ih d2 (i + 1) (if b1 = nl then l + 1 else l)
      simp only [loop, loopTo]
      by_cases hb : b1 ≠ b2
      · by_cases hw : b1 ≠ b2 ∧ ¬ s.writeAll
        · simp only [if_pos hw, if_pos hb]
          exact ⟨c, c1, fun ans k => by rw [c2]⟩
        · simp only [if_neg hw, if_pos hb]
          exact ⟨c ++ cs, by simp [c1, h1], fun ans k => by rw [c2, h2, after_after]⟩
      · have hw : ¬(b1 ≠ b2 ∧ ¬ s.writeAll) := fun h => hb h.1
        simp only [if_neg hw, if_neg hb]
        exact ⟨cs, by simp [h1], fun ans k => by rw [h2]⟩

/-- **C124** (the expectation fails) `cmp` does not notice that its output is not taken. -/
theorem C124_cmp (w : World) (args : List Bytes) : ∃ calls, ∀ ans, Unnoticed ans (main w args) calls (mainTo ans w args) := by
  simp only [main, mainTo]
  cases parseSettings args with
  | error e => exact ⟨[], fun ans => ⟨rfl, rfl, rfl, rfl⟩⟩
  | ok s =>
    simp only [cmp]
    cases openFile w s.file1 with
    | none => exact ⟨[], fun ans => ⟨rfl, rfl, rfl, rfl⟩⟩
    | some f1 =>
      cases openFile w s.file2 with
      | none => exact ⟨[], fun ans => ⟨rfl, rfl, rfl, rfl⟩⟩
      | some f2 =>
        by_cases h : s.file1 = b!"-" ∧ s.file2 = b!"-"
        · obtain ⟨cs, h1, h2⟩ := loopTo_eq s w.shared.1.err w.shared.2.err w.shared.1.data w.shared.2.data 1 1
          simp only [if_pos h]
          exact ⟨cs, fun ans => ⟨h1, by rw [h2, left_after], by rw [h2, left_after], by rw [h2, left_after]⟩⟩
        · obtain ⟨cs, h1, h2⟩ := loopTo_eq s f1.err f2.err f1.data f2.data 1 1
          simp only [if_neg h]
          exact ⟨cs, fun ans => ⟨h1, by rw [h2, left_after], by rw [h2, left_after], by rw [h2, left_after]⟩⟩

end Cmp

namespace Diff

/-- **C124** (the expectation fails) `diff` does not notice that its output is not taken. -/
theorem C124_diff (p : Nat → Bool) (fs : FS) (args : List Bytes) : ∃ calls, ∀ ans, Unnoticed ans (main p fs args) calls (mainTo ans p fs args) := by
  simp only [main, mainTo, print_eq, left_after]
  cases parseSettings args with
  | error e => exact ⟨[_], fun ans => ⟨by simp, rfl, rfl, rfl⟩⟩
  | ok s => exact ⟨[_], fun ans => ⟨by simp, rfl, rfl, rfl⟩⟩

end Diff

namespace Locale

/-- **C124** (the expectation fails) `locale` does not notice that its output is not taken. -/
theorem C124_locale (env : Bytes → Bytes) (ans : Answers) : Unnoticed ans { stdout := main env, stderr := [], exit := 0 } [main env] (mainTo ans env) := by
  simp only [mainTo, print_eq, left_after]
  exact ⟨by simp, rfl, rfl, rfl⟩

end Locale

namespace Head

theorem scanLoopTo_eq (n : Int) (fails early : Bool) (toks : List Bytes) : ∀ j, ∃ calls, calls.flatten = (scanLoop n fails early toks j).1 ∧
    ∀ ans k, scanLoopTo ans n fails early k toks j = (k.after ans calls, (scanLoop n fails early toks j).2) := by
  induction toks with
  | nil => intro j; exact ⟨[], rfl, fun ans k => by rw [after_nil]; rfl⟩
  | cons t ts ih =>
    intro j
    simp only [scanLoop, scanLoopTo]
    by_cases h : (j : Int) < n
    · obtain ⟨cs, h1, h2⟩ := ih (j + 1)
      simp only [if_pos h]
      exact ⟨(t ++ [nl]) :: cs, by simp [h1], fun ans k => by rw [h2, print_after]⟩
    · simp only [if_neg h]
      exact ⟨[], rfl, fun ans k => by rw [after_nil]⟩

theorem scanFileTo_eq (n : Int) (c : Stream) : ∃ calls, calls.flatten = (scanFile n c).1 ∧ ∀ ans k, scanFileTo ans n k c = (k.after ans calls, (scanFile n c).2) :=
  scanLoopTo_eq n _ _ _ 0

theorem bannerTo_eq (many : Bool) (i : Nat) (name : Bytes) : ∃ calls : List Bytes, calls.flatten = banner many i name ∧ ∀ ans k, bannerTo ans many i k name = k.after ans calls := by
  cases many with
  | false => exact ⟨[], rfl, fun ans k => by rw [after_nil]; rfl⟩
  | true =>
    by_cases h : i > 0
    · exact ⟨[b!"\n", b!"==> " ++ name ++ b!" <==\n"], by simp [banner, h], fun ans k => by
        simp only [bannerTo, if_true, if_pos h]
        rw [print_eq, print_eq, after_after]; rfl⟩
    · exact ⟨[b!"==> " ++ name ++ b!" <==\n"], by simp [banner, h], fun ans k => by simp only [bannerTo, if_true, if_neg h, print_eq]⟩

theorem processLoopTo_eq (w : World) (n : Int) (many : Bool) (fs : List Bytes) : ∀ i, ∃ calls, calls.flatten = (processLoop w n many i fs).stdout ∧
    ∀ ans k, processLoopTo ans w n many k i fs = (k.after ans calls, (processLoop w n many i fs).panic) := by
  induction fs with
  | nil => intro i; exact ⟨[], rfl, fun ans k => by rw [after_nil]; rfl⟩
  | cons f rest ih =>
    intro i
    obtain ⟨b, b1, b2⟩ := bannerTo_eq many i f
    simp only [processLoop, processLoopTo, b2]
    cases openAt w i f with
    | none => exact ⟨b, b1, fun ans k => rfl⟩
    | some c =>
      obtain ⟨s, s1, s2⟩ := scanFileTo_eq n c
      simp only [s2]
      generalize scanFile n c = x at s1
      obtain ⟨x, y⟩ := x
      cases y with
      | true => exact ⟨b ++ s, by simp [b1, s1], fun ans k => by simp [after_after]⟩
      | false =>
        obtain ⟨cs, h1, h2⟩ := ih (i + 1)
        exact ⟨b ++ s ++ cs, by simp [b1, s1, h1], fun ans k => by simp [h2, after_after, List.append_assoc]⟩

/-- **C124** (the expectation fails) `head` does not notice that its output is not taken. -/
theorem C124_head (w : World) (args : List Bytes) : ∃ calls, calls.flatten = (main w args).stdout ∧
    ∀ ans, mainTo ans w args = { stdout := taken ans 0 calls, panic := (main w args).panic } := by
  simp only [main, mainTo]
  cases parseSettings args with
  | error p => exact ⟨[], rfl, fun ans => rfl⟩
  | ok s =>
    obtain ⟨cs, h1, h2⟩ := processLoopTo_eq w s.numLines (s.filenames.length > 1) s.filenames 0
    exact ⟨cs, h1, fun ans => by simp only [h2, Sink.after, List.nil_append]; rfl⟩

end Head

namespace TSort

theorem printTo_eq (l : List Bytes) : ∀ ans k, printTo ans k l = k.after ans (l.map (· ++ [nl])) := by
  induction l with
  | nil => intro ans k; rw [List.map_nil, after_nil]; rfl
  | cons x l ih => intro ans k; rw [printTo, ih, print_after]; rfl

/-- **C124** (the expectation fails) `tsort` does not notice that its output is not taken. -/
theorem C124_tsort (input : Bytes) (ans : Answers) (r : Out) (h : RunTo ans input r) :
    ∃ all calls, Run input all ∧ Unnoticed ans all calls r := by
  simp only [RunTo, Run] at *
  cases hf : feed [] (scanWords input).1 with
  | error w => rw [hf] at h; exact ⟨r, [], h, by rw [h]; exact ⟨rfl, rfl, rfl, rfl⟩⟩
  | ok m =>
    rw [hf] at h
    simp only at h ⊢
    by_cases ht : (scanWords input).2 = true
    · rw [if_pos ht] at h
      exact ⟨r, [], by rw [if_pos ht]; exact h, by rw [h]; exact ⟨rfl, rfl, rfl, rfl⟩⟩
    · rw [if_neg ht] at h
      obtain ⟨o, m', h1, h2⟩ := h
      cases o with
      | none => exact ⟨r, [], by rw [if_neg ht]; exact ⟨none, m', h1, h2⟩, by rw [h2]; exact ⟨rfl, rfl, rfl, rfl⟩⟩
      | some l =>
        refine ⟨{ stdout := unlines l, stderr := [], exit := 0 }, l.map (· ++ [nl]), by rw [if_neg ht]; exact ⟨some l, m', h1, rfl⟩, ?_⟩
        rw [h2, printTo_eq, left_after]
        refine ⟨?_, rfl, rfl, rfl⟩
        show _ = unlines l
        clear h1 h2
        induction l with
        | nil => rfl
        | cons x l ih => simp [unlines, ih]

end TSort

namespace Kill

/-- **C124** (the expectation fails) `kill` does not notice that its output is not taken; the signal is sent all the same. -/
theorem C124_kill (w : World) (args : List Bytes) : ∃ calls, calls.flatten = (main w args).stdout ∧
    ∀ ans, mainTo ans w args = { main w args with stdout := taken ans 0 calls } := by
  simp only [main, mainTo, print_eq]
  cases parseLoop w {} args with
  | error e => cases e <;> exact ⟨[], rfl, fun ans => rfl⟩
  | ok s =>
    simp only []
    cases w.findErr s.pid with
    | some e => exact ⟨[announce s], by simp, fun ans => by simp [Sink.after]⟩
    | none =>
      simp only []
      split
      · exact ⟨[announce s], by simp, fun ans => by simp [Sink.after]⟩
      · cases w.killErr s.pid with
        | some e => exact ⟨[announce s], by simp, fun ans => by simp [Sink.after]⟩
        | none => exact ⟨[announce s, b!"vim-go\n"], by simp, fun ans => by simp only [after_after]; simp [Sink.after]⟩

end Kill

namespace Cat

theorem copyTo_eq (ans : Answers) : ∀ (n : Nat) (k : Sink) (r : Source), r.Lively → r.bytes.length < n →
    (∃ c, copyTo ans n k r = ({ calls := c, out := k.out ++ r.bytes }, r.err, { r with chunks := [] })) ∨
    ∃ c i m e p r', ans i = some (m, e) ∧ p <+: r.bytes ∧ copyTo ans n k r = ({ calls := c, out := k.out ++ p }, some e, r') := by
  intro n
  induction n with
  | zero => intro k r _ h; omega
  | succ n ih =>
    intro k r hl hn
    obtain ⟨chunks, err⟩ := r
    cases chunks with
    | nil =>
      left
      refine ⟨k.calls, ?_⟩
      cases err <;> simp [copyTo, Source.read, Source.bytes, Source.ending, ScanErr.text]
    | cons c cs =>
      have hc : c ≠ [] := hl c (by simp)
      have hc0 : 0 < c.length := List.length_pos_iff.2 hc
      have hcs : ∀ d ∈ cs, d ≠ [] := fun d hd => hl d (by simp [hd])
      simp only [Source.bytes, List.flatten_cons, List.length_append] at hn
      -- the piece that is read, and what is left
      obtain ⟨x, r1, hread, hx, hbytes, hl1, herr⟩ : ∃ x r1, Source.read ⟨c :: cs, err⟩ 32768 = (x, none, r1) ∧ x ≠ [] ∧ c ++ cs.flatten = x ++ r1.bytes ∧
          r1.Lively ∧ r1.err = err := by
        by_cases hle : c.length ≤ 32768
        · exact ⟨c, ⟨cs, err⟩, by simp only [Source.read, if_pos hle], hc, rfl, hcs, rfl⟩
        · refine ⟨c.take 32768, ⟨c.drop 32768 :: cs, err⟩, by simp only [Source.read, if_neg hle], ?_, ?_, ?_, rfl⟩
          · intro h; have := congrArg List.length h; simp only [List.length_take, List.length_nil] at this; omega
          · simp only [Source.bytes, List.flatten_cons]
            rw [← List.append_assoc, List.take_append_drop]
          · intro d hd
            rcases List.mem_cons.1 hd with rfl | hd
            · intro h; have := congrArg List.length h; simp at this; omega
            · exact hcs d hd
      have hx0 : 0 < x.length := List.length_pos_iff.2 hx
      have hlen := congrArg List.length hbytes
      simp only [List.length_append] at hlen
      simp only [copyTo, hread, if_neg hx, Source.bytes, List.flatten_cons]
      simp only [Sink.write]
      cases ha : ans k.calls with
      | some me =>
        right
        obtain ⟨m, e⟩ := me
        refine ⟨k.calls + 1, k.calls, m, e, x.take m, r1, ha, ?_, rfl⟩
        rw [hbytes]
        exact (List.take_prefix m x).trans (List.prefix_append x _)
      | none =>
        simp only []
        rcases ih { calls := k.calls + 1, out := k.out ++ x } r1 hl1 (by omega) with ⟨c', h⟩ | ⟨c', i, m, e, p, r', h1, h2, h3⟩
        · left
          refine ⟨c', ?_⟩
          rw [h, herr, hbytes]
          simp
        · right
          refine ⟨c', i, m, e, x ++ p, r', h1, ?_, by rw [h3]; simp⟩
          rw [hbytes]
          exact (List.prefix_append_right_inj x).mpr h2

/-- **C124** (partial: the message speaks of reading, and the exit status is 0 all the same) If standard output does not take
everything, `cat` stops and says why; what has arrived is the beginning of what it had to print. -/
theorem C124_cat_partial (file : Bytes → Except Bytes Source) (hl : ∀ f r, file f = .ok r → r.Lively) (stdin : Source) (hs : stdin.Lively)
    (args : List Bytes) (ans : Answers) :
    mainTo ans file stdin args = mainFrom file stdin args ∨
    ∃ k n e f p, ans k = some (n, e) ∧ f ∈ operands args ∧ p <+: (mainFrom file stdin args).stdout ∧
      mainTo ans file stdin args =
        { stdout := p, stderr := b!"Error encountered while attempting to read from " ++ f ++ b!": " ++ e ++ b!"\n", exit := 0 } := by
  simp only [mainTo, mainFrom]
  generalize operands args = fs
  suffices H : ∀ (fs : List Bytes) (k : Sink) (stdin : Source), stdin.Lively →
      (∃ c, loopTo ans file k stdin fs = ({ calls := c, out := k.out ++ (loopFrom file stdin fs).stdout }, (loopFrom file stdin fs).stderr, (loopFrom file stdin fs).exit)) ∨
      ∃ c i n e f p, ans i = some (n, e) ∧ f ∈ fs ∧ p <+: (loopFrom file stdin fs).stdout ∧
        loopTo ans file k stdin fs = ({ calls := c, out := k.out ++ p }, b!"Error encountered while attempting to read from " ++ f ++ b!": " ++ e ++ b!"\n", 0) by
    rcases H fs {} stdin hs with ⟨c, h⟩ | ⟨c, i, n, e, f, p, h1, h2, h3, h4⟩
    · left; rw [h]; simp [left]
    · right; exact ⟨i, n, e, f, p, h1, h2, h3, by rw [h4]; simp [left]⟩
  intro fs
  induction fs with
  | nil => intro k stdin _; left; exact ⟨k.calls, by simp [loopTo, loopFrom]⟩
  | cons f rest ih =>
    intro k stdin hs
    -- one operand
    have one : (∃ c stdin', stdin'.Lively ∧ writeFileTo ans file k stdin f = ({ calls := c, out := k.out ++ (writeFileFrom file stdin f).1 }, (writeFileFrom file stdin f).2.1, stdin') ∧
          (writeFileFrom file stdin f).2.2 = stdin') ∨
        ∃ c i m e p r', ans i = some (m, e) ∧ p <+: (writeFileFrom file stdin f).1 ∧ writeFileTo ans file k stdin f = ({ calls := c, out := k.out ++ p }, some e, r') := by
      unfold writeFileTo writeFileFrom
      by_cases hf : f = b!"-"
      · simp only [if_pos hf]
        rw [readToEnd_eq _ (fun _ => by decide) _ hs]
        rcases copyTo_eq ans (stdin.bytes.length + 1) k stdin hs (by omega) with ⟨c, h⟩ | ⟨c, i, m, e, p, r', h1, h2, h3⟩
        · left; exact ⟨c, _, fun _ h => (by cases h), h, rfl⟩
        · right; exact ⟨c, i, m, e, p, r', h1, h2, h3⟩
      · simp only [if_neg hf]
        cases hff : file f with
        | error e => left; exact ⟨k.calls, stdin, hs, by simp, rfl⟩
        | ok r =>
          have hr := hl f r hff
          simp only []
          rw [readToEnd_eq _ (fun _ => by decide) _ hr]
          rcases copyTo_eq ans (r.bytes.length + 1) k r hr (by omega) with ⟨c, h⟩ | ⟨c, i, m, e, p, r', h1, h2, h3⟩
          · left; exact ⟨c, stdin, hs, by rw [h], rfl⟩
          · right; exact ⟨c, i, m, e, p, stdin, h1, h2, by rw [h3]⟩
    simp only [loopTo, loopFrom]
    generalize writeFileFrom file stdin f = x at one
    obtain ⟨out, err, s2⟩ := x
    simp only at one
    rcases one with ⟨c, stdin', hs', h1, h2⟩ | ⟨c, i, m, e, p, r', h1, h2, h3⟩
    · subst h2
      rw [h1]
      cases err with
      | some e => left; exact ⟨c, rfl⟩
      | none =>
        simp only []
        rcases ih { calls := c, out := k.out ++ out } s2 hs' with ⟨c', h⟩ | ⟨c', i, n, e, f', p, g1, g2, g3, g4⟩
        · left; exact ⟨c', by rw [h]; simp⟩
        · right
          exact ⟨c', i, n, e, f', out ++ p, g1, by simp [g2], (List.prefix_append_right_inj out).mpr g3, by rw [g4]; simp⟩
    · right
      rw [h3]
      refine ⟨c, i, m, e, f, p, h1, by simp, ?_, rfl⟩
      cases err with
      | some e => exact h2
      | none => exact h2.trans (List.prefix_append _ _)

/-- A disk with room for three bytes. -/
example : mainTo (fun k => if k = 0 then none else some (1, b!"no space left on device")) (fun _ => .ok { chunks := [b!"ab", b!"cd", b!"e"] }) { chunks := [] } [b!"f", b!"g"] =
    { stdout := b!"abc", stderr := b!"Error encountered while attempting to read from f: no space left on device\n", exit := 0 } := by decide +kernel

end Cat

/-! ## Refutations -/

/-- The second call fails, the others do not. -/
def secondFails : Answers := fun k => if k = 1 then some (0, b!"no space left on device") else none

/-- **C124** (refutation) A line can be missing in the middle of the output, without a message and with status 0. -/
theorem C124_counterexample :
    Cksum.mainTo secondFails (fun _ => some b!"x") ⟨fun _ => [], fun _ => none⟩ [] [b!"a", b!"b", b!"c"] =
      { stdout := Cksum.line b!"x" b!"a" ++ Cksum.line b!"x" b!"c", stderr := [], exit := 0 } ∧
    Head.mainTo secondFails ⟨fun _ => some ⟨b!"one\ntwo\nthree\n", false⟩, fun _ => ⟨[], false⟩⟩ [b!"f"] = { stdout := b!"one\nthree\n", panic := none } ∧
    TSort.RunTo secondFails b!"a b b c" { stdout := b!"a\nc\n", stderr := [], exit := 0 } ∧
    (∃ ans, Diff.mainTo ans (fun _ => true) (fun f => if f = b!"a" then some b!"x\n" else some b!"y\n") [b!"a", b!"b"] = { stdout := [], stderr := [], exit := 0 }) := by
  refine ⟨by decide +kernel, by decide +kernel, ?_, fun _ => some (0, []), by decide +kernel⟩
  have hw : scanWords b!"a b b c" = ([b!"a", b!"b", b!"b", b!"c"], false) := by decide
  have hfeed : TSort.feed [] [b!"a", b!"b", b!"b", b!"c"] = .ok [(b!"a", [b!"b"]), (b!"b", [b!"c"])] := by decide
  simp only [TSort.RunTo, hw, hfeed]
  rw [if_neg (by simp)]
  exact ⟨some [b!"a", b!"b", b!"c"], [], ⟨[b!"a"], 5, List.Perm.refl _, by decide⟩, by decide⟩
