import Verif.Cat.Model
import Verif.Cksum.Model
import Verif.Cmp.Model
import Verif.Diff.Cmd
import Verif.Head.Props
import Verif.TSort.Model
import Verif.Ed.LongLines

/-!
# How many files are open (C126)

A process may have only a certain number of files open. Here every `os.Open` takes one of them and every `Close` gives it back;
`limit` is the number of files that can be open besides the three standard ones. An `os.Open` beyond the limit fails with
`tooMany`. A file that was never closed is given back when the garbage collector finds that nothing refers to it; when it runs is not
known, so it is a parameter (`Collector`).
-/

namespace Go

/-- `open f: too many open files` (`EMFILE`). -/
def tooMany (name : Bytes) : Bytes := b!"open " ++ name ++ b!": too many open files"

/-- How many of the files that nothing refers to any more are still open before step `i`. -/
abbrev Collector := Nat → Nat → Nat

/-- The collector only closes files. -/
def Collector.Ok (gc : Collector) : Prop := ∀ i n, gc i n ≤ n

/-- The collector never runs. -/
def never : Collector := fun _ n => n

/-- The collector runs all the time. -/
def always : Collector := fun _ _ => 0

end Go

open Go

/-! ## The model -/

/-- cat main.go:17-32 `writeFile`; the last component is how many files are open afterwards. Line 28 defers the `Close`. -/
def Cat.writeFileIn (limit opened : Nat) (file : Bytes → Except Bytes Stream) (stdin : Stream) (name : Bytes) : (Bytes × Option Bytes × Stream) × Nat :=
  if name = b!"-" then ((stdin.data, stdin.err, ⟨[], stdin.err⟩), opened)
  else if limit ≤ opened then (([], some (tooMany name), stdin), opened)
  else
    match file name with
    | .error e => (([], some e, stdin), opened)
    | .ok f => ((f.data, f.err, stdin), opened + 1 - 1)

/-- cat main.go:48-54. -/
def Cat.loopIn (limit : Nat) (file : Bytes → Except Bytes Stream) : (opened : Nat) → (stdin : Stream) → List Bytes → Out
  | _, _, [] => ⟨[], [], 0⟩
  | opened, stdin, f :: rest =>
    match writeFileIn limit opened file stdin f with
    | ((out, some e, _), _) => ⟨out, b!"Error encountered while attempting to read from " ++ f ++ b!": " ++ e ++ b!"\n", 0⟩
    | ((out, none, stdin'), opened') =>
      let r := loopIn limit file opened' stdin' rest
      { r with stdout := out ++ r.stdout }

/-- cat main.go:34-55 `main`. -/
def Cat.mainIn (limit : Nat) (file : Bytes → Except Bytes Stream) (stdin : Stream) (args : List Bytes) : Out :=
  loopIn limit file 0 stdin (operands args)

/-- cksum main.go:14-30 `run` for each operand, main.go:37-39. Line 21 defers the `Close`, to the end of `run`. -/
def Cksum.runAllIn (limit : Nat) (fs : FS) (er : Errors) : (opened : Nat) → (stdin : Bytes) → List Bytes → Out
  | _, _, [] => { stdout := [], stderr := [], exit := 0 }
  | opened, stdin, f :: rest =>
    if f = b!"-" then
      match er.readErr f with
      | some e => { stdout := [], stderr := b!"couldn't read input " ++ e, exit := 1 }
      | none =>
        let r := runAllIn limit fs er opened [] rest
        { r with stdout := line stdin f ++ r.stdout }
    else if limit ≤ opened then { stdout := [], stderr := b!"couldn't open file " ++ tooMany f, exit := 1 }
    else
      match fs f with
      | none => { stdout := [], stderr := b!"couldn't open file " ++ er.openErr f, exit := 1 }
      | some s =>
        match er.readErr f with
        | some e => { stdout := [], stderr := b!"couldn't read input " ++ e, exit := 1 }
        | none =>
          let r := runAllIn limit fs er (opened + 1 - 1) stdin rest
          { r with stdout := line s f ++ r.stdout }

/-- cksum main.go:32-40 `main`. -/
def Cksum.mainIn (limit : Nat) (fs : FS) (er : Errors) (stdin : Bytes) (args : List Bytes) : Out :=
  runAllIn limit fs er 0 stdin (if args = [] then [b!"-"] else args)

/-- cmp main.go:39-44 `open`, with the number of files open before it. -/
def Cmp.openIn (limit opened : Nat) (w : World) (name : Bytes) : Option (Stream × Nat) :=
  if name = b!"-" then some (w.stdin, opened)
  else if limit ≤ opened then none
  else (w.file name).map fun f => (f, opened + 1)

/-- cmp main.go:46-104 `cmp`: both files are open at the same time (the `Close`s of lines 51 and 56 are deferred). -/
def Cmp.cmpIn (limit : Nat) (w : World) (s : Settings) : Out :=
  match openIn limit 0 w s.file1 with
  | none => fail (b!"could not open " ++ s.file1)
  | some (f1, opened) =>
    match openIn limit opened w s.file2 with
    | none => fail (b!"could not open " ++ s.file2)
    | some (f2, _) =>
      if s.file1 = b!"-" ∧ s.file2 = b!"-" then
        loop s w.shared.1.err w.shared.2.err w.shared.1.data w.shared.2.data 1 1
      else loop s f1.err f2.err f1.data f2.data 1 1

/-- cmp main.go:106-118 `main`. -/
def Cmp.mainIn (limit : Nat) (w : World) (args : List Bytes) : Out :=
  match parseSettings args with
  | .error e => fail e
  | .ok s => cmpIn limit w s

/-- diff main.go:83-95 `readLines`: the lines and how many files are open afterwards. Line 88 defers the `Close`. -/
def Diff.readLinesIn (limit opened : Nat) (fs : FS) (name : Bytes) : List Bytes × Nat :=
  if limit ≤ opened then ([], opened)
  else
    match fs name with
    | none => ([], opened)
    | some s => ((scanLines s).1, opened + 1 - 1)

/-- diff main.go:97-109 `main`. -/
def Diff.mainIn (limit : Nat) (p : Nat → Bool) (fs : FS) (args : List Bytes) : Out :=
  match parseSettings args with
  | .error e => { stdout := b!"Oh heck an error: " ++ e.text p ++ [nl], stderr := [], exit := 1 }
  | .ok s =>
    let l1 := readLinesIn limit 0 fs s.file1
    let l2 := readLinesIn limit l1.2 fs s.file2
    { stdout := format (diff l1.1 l2.1) ++ [nl], stderr := [], exit := 0 }

/-- tsort main.go:53-68 `main`. -/
def TSort.MainIn (limit : Nat) (fs : FS) (stdin : Bytes) (args : List Bytes) (out : Out) : Prop :=
  match args with
  | [] => Run stdin out
  | f :: _ =>
    if f = b!"-" then Run stdin out
    else if limit ≤ 0 then out = die b!"can't open" f
    else match fs f with
      | none => out = die b!"can't open" f
      | some s => Run s out

/-- head main.go:49-76: the loop of `process`. Nothing is closed: `opened` files are still open unless the collector closes them. -/
def Head.processLoopIn (gc : Collector) (limit : Nat) (w : World) (n : Int) (many : Bool) : (opened i : Nat) → List Bytes → Result
  | _, _, [] => ⟨[], none⟩
  | opened, i, f :: rest =>
    if f ≠ b!"-" ∧ limit ≤ gc i opened then ⟨banner many i f, some .explicit⟩
    else
      match openAt w i f with
      | none => ⟨banner many i f, some .explicit⟩
      | some c =>
        let r := scanFile n c
        if r.2 then ⟨banner many i f ++ r.1, some .explicit⟩
        else
          let r' := processLoopIn gc limit w n many (gc i opened + if f = b!"-" then 0 else 1) (i + 1) rest
          ⟨banner many i f ++ r.1 ++ r'.stdout, r'.panic⟩

/-- head main.go:47-86 `process` and `main`. -/
def Head.mainIn (gc : Collector) (limit : Nat) (w : World) (args : List Bytes) : Result :=
  match parseSettings args with
  | .error p => ⟨[], some p⟩
  | .ok s => processLoopIn gc limit w s.numLines (s.filenames.length > 1) 0 0 s.filenames

namespace Ed

/-- The editor and the number of files that are open although no table refers to them any more. -/
structure Held where
  st : State
  lost : Nat

/-- Whether the table of the editor has an open file (piece_table.go:13-17, 38-43). -/
def holds (pt : Txt.PieceTable) : Nat := if pt.closable = true ∧ pt.closed = false then 1 else 0

/-- ed.go:80-102 `Edit`: the file the old table refers to is not closed. -/
def editIn (limit : Nat) (env : Env) (h : Held) (name : Bytes) : M (Held × Option Bytes) :=
  if limit ≤ h.lost + holds h.st.pt then .ok (h, some (tooMany name))
  else
    match edit env h.st name with
    | .error p => .error p
    | .ok (s', some e) => .ok ({ h with st := s' }, some e)
    | .ok (s', none) => .ok ({ st := s', lost := h.lost + holds h.st.pt }, none)

/-- ed.go:48-77 `Write`: the file is closed (line 50), then `ioutil.WriteFile` (line 65) has the temporary file open for a while. -/
def writeIn (limit : Nat) (env : Env) (h : Held) : M (Held × Option Bytes) :=
  match h.st.pt.string with
  | .error p => .error p
  | .ok data =>
    let o := env.outcome h.st.writes
    let open_ := h.lost + holds h.st.pt.close
    let o' : Outcome := if limit ≤ open_ ∧ o.writeFile = none then { o with writeFile := some (tooMany (tmpName h.st.filename)), written := none } else o
    let tr := saveTrace o' h.st.fs h.st.filename data
    let s' := { h.st with pt := h.st.pt.close, fs := finalFS h.st.fs tr.1, writes := h.st.writes + 1 }
    match tr.2 with
    | some err => .ok ({ h with st := s' }, some err)
    | none => editIn limit env { h with st := s' } s'.filename

/-- ed.go:296-357 `processCommand`: only `e` and `w` open files. -/
def processCommandIn (limit : Nat) (env : Env) (h : Held) (cmd : Command) : R (Held × Bytes) :=
  if cmd.typ = .edit then do
    let r ← lift (editIn limit env h (cmd.params.headD []))
    return (r.1, r.2.getD [])
  else if cmd.typ = .write then do
    let r ← lift (writeIn limit env h)
    return (r.1, match r.2 with | none => [] | some err => 63 :: err)
  else do
    let r ← processCommand env h.st cmd
    return ({ h with st := r.1 }, r.2)

/-- Several commands; before the one with number `i` the collector may close files. -/
def runAllIn (gc : Collector) (limit : Nat) (env : Env) : (i : Nat) → Held → List Command → R (Held × List Bytes)
  | _, h, [] => .ok (h, [])
  | i, h, c :: cs =>
    match processCommandIn limit env { h with lost := gc i h.lost } c with
    | .error f => .error f
    | .ok (h1, out) =>
      match runAllIn gc limit env (i + 1) h1 cs with
      | .error f => .error f
      | .ok (h2, outs) => .ok (h2, out :: outs)

end Ed

/-! ## The commands that close what they open -/

namespace Cat

theorem loopIn_eq {limit : Nat} (hl : 1 ≤ limit) (file : Bytes → Except Bytes Stream) (fs : List Bytes) : ∀ stdin, loopIn limit file 0 stdin fs = loop file stdin fs := by
  induction fs with
  | nil => intro stdin; rfl
  | cons f fs ih =>
    intro stdin
    have hn : ¬ limit ≤ 0 := by omega
    simp only [loopIn, loop, writeFileIn, writeFile, if_neg hn]
    by_cases hf : f = b!"-"
    · simp only [if_pos hf]
      cases stdin.err with
      | some e => rfl
      | none => simp only [ih]
    · simp only [if_neg hf]
      cases file f with
      | error e => rfl
      | ok d =>
        simp only [Nat.add_sub_cancel]
        cases d.err with
        | some e => rfl
        | none => simp only [ih]

/-- **C126** `cat` needs one file at a time, however many operands there are. -/
theorem C126_cat {limit : Nat} (hl : 1 ≤ limit) (file : Bytes → Except Bytes Stream) (stdin : Stream) (args : List Bytes) :
    mainIn limit file stdin args = main file stdin args := loopIn_eq hl file _ stdin

end Cat

namespace Cksum

theorem runAllIn_eq {limit : Nat} (hl : 1 ≤ limit) (fs : FS) (er : Errors) (files : List Bytes) : ∀ stdin, runAllIn limit fs er 0 stdin files = runAll fs er stdin files := by
  have hn : ¬ limit ≤ 0 := by omega
  induction files with
  | nil => intro stdin; rfl
  | cons f files ih =>
    intro stdin
    simp only [runAllIn, runAll, if_neg hn, Nat.add_sub_cancel, ih]
    by_cases hf : f = b!"-"
    · simp only [if_pos hf]
      cases er.readErr f <;> rfl
    · simp only [if_neg hf]
      cases fs f with
      | none => rfl
      | some d => simp only []; cases er.readErr f <;> rfl

/-- **C126** `cksum` needs one file at a time. -/
theorem C126_cksum {limit : Nat} (hl : 1 ≤ limit) (fs : FS) (er : Errors) (stdin : Bytes) (args : List Bytes) :
    mainIn limit fs er stdin args = main fs er stdin args := runAllIn_eq hl fs er _ stdin

end Cksum

namespace Cmp

/-- **C126** `cmp` needs two files at a time. -/
theorem C126_cmp {limit : Nat} (hl : 2 ≤ limit) (w : World) (args : List Bytes) : mainIn limit w args = main w args := by
  simp only [mainIn, main]
  cases parseSettings args with
  | error e => rfl
  | ok s =>
    have h0 : ¬ limit ≤ 0 := by omega
    have h1 : ¬ limit ≤ 1 := by omega
    simp only [cmpIn, cmp, openIn, openFile, if_neg h0]
    by_cases hf : s.file1 = b!"-" <;> by_cases hg : s.file2 = b!"-" <;> simp only [hf, hg, if_true, if_false, if_neg h0]
    · cases w.file s.file2 <;> simp
    · cases w.file s.file1 <;> simp
    · cases w.file s.file1 with
      | none => simp
      | some x =>
        simp only [Option.map_some, Nat.zero_add, if_neg h1]
        cases w.file s.file2 <;> simp

/-- … and with room for one only it says that the second cannot be opened. -/
theorem C126_cmp_two {w : World} {f1 f2 : Bytes} {s : Settings} {c : Stream} (hs : s.file1 = f1 ∧ s.file2 = f2) (h1 : f1 ≠ b!"-") (h2 : f2 ≠ b!"-")
    (hc : w.file f1 = some c) : cmpIn 1 w s = fail (b!"could not open " ++ f2) := by
  obtain ⟨rfl, rfl⟩ := hs
  simp [cmpIn, openIn, h1, h2, hc]

end Cmp

namespace Diff

/-- **C126** `diff` needs one file at a time. -/
theorem C126_diff {limit : Nat} (hl : 1 ≤ limit) (p : Nat → Bool) (fs : FS) (args : List Bytes) : mainIn limit p fs args = main p fs args := by
  have h0 : ¬ limit ≤ 0 := by omega
  have key : ∀ f, readLinesIn limit 0 fs f = (readLines fs f, 0) := by
    intro f
    simp only [readLinesIn, readLines, if_neg h0]
    cases fs f <;> rfl
  simp only [mainIn, main, key]
  cases parseSettings args <;> rfl

end Diff

namespace TSort

/-- **C126** `tsort` needs one file. -/
theorem C126_tsort {limit : Nat} (hl : 1 ≤ limit) (fs : FS) (stdin : Bytes) (args : List Bytes) (out : Out) : MainIn limit fs stdin args out ↔ Main fs stdin args out := by
  have h0 : ¬ limit ≤ 0 := by omega
  cases args with
  | nil => exact Iff.rfl
  | cons f args =>
    simp only [MainIn, Main, if_neg h0]
    by_cases hf : f = b!"-"
    · simp only [if_pos hf]
    · simp only [if_neg hf]
      cases fs f <;> exact Iff.rfl

end TSort

/-! ## head -/

namespace Head

/-- The operands that are files. -/
def named (fs : List Bytes) : Nat := (fs.filter (· ≠ b!"-")).length

theorem processLoopIn_eq {gc : Collector} (hgc : gc.Ok) {limit : Nat} (w : World) (n : Int) (many : Bool) (fs : List Bytes) :
    ∀ opened i, opened + named fs ≤ limit → processLoopIn gc limit w n many opened i fs = processLoop w n many i fs := by
  induction fs with
  | nil => intro opened i _; rfl
  | cons f fs ih =>
    intro opened i h
    have hg := hgc i opened
    simp only [processLoopIn, processLoop]
    by_cases hf : f = b!"-"
    · subst hf
      have hn : named (b!"-" :: fs) = named fs := by simp [named]
      rw [hn] at h
      rw [if_neg (by simp)]
      simp only [if_true]
      rw [ih _ _ (by omega)]
      cases openAt w i b!"-" <;> rfl
    · have hn : named (f :: fs) = named fs + 1 := by simp [named, hf]
      rw [hn] at h
      rw [if_neg (by omega)]
      simp only [if_neg hf]
      rw [ih _ _ (by omega)]
      cases openAt w i f <;> rfl

theorem processLoopIn_always {limit : Nat} (hl : 1 ≤ limit) (w : World) (n : Int) (many : Bool) (fs : List Bytes) :
    ∀ opened i, processLoopIn always limit w n many opened i fs = processLoop w n many i fs := by
  induction fs with
  | nil => intro opened i; rfl
  | cons f fs ih =>
    intro opened i
    simp only [processLoopIn, processLoop]
    rw [if_neg (by simp only [always]; omega)]
    simp only [ih]
    cases openAt w i f <;> rfl

theorem mainIn_inv {gc : Collector} {limit : Nat} {m files args} (h : Invocation 10 m files args) (hne : args ≠ []) (w : World) :
    mainIn gc limit w args = processLoopIn gc limit w m ((operands files).length > 1) 0 0 (operands files) := by
  have := parseLoop_inv h []
  simp only [mainIn, parseSettings, hne, if_false, this, withDefault, operands, List.nil_append]
  split <;> rfl

theorem named_operands (files : List Bytes) : named (operands files) = named files := by
  by_cases h : files = []
  · subst h; rfl
  · simp [operands, h]

/-- **C126** (partial: only as many operands as files can be open) With no more files among its operands than can be open at a time, `head`
is not affected, whatever the collector does. -/
theorem C126_head_partial {gc : Collector} (hgc : gc.Ok) {limit : Nat} (w : World) (args : List Bytes)
    (h : ∀ m files, Invocation 10 m files args → named files ≤ limit) : mainIn gc limit w args = main w args := by
  by_cases hne : args = []
  · subst hne; rfl
  by_cases hi : ∃ m files, Invocation 10 m files args
  · obtain ⟨m, files, hi⟩ := hi
    rw [mainIn_inv hi hne, main_inv hi hne, process]
    exact processLoopIn_eq hgc w m _ _ 0 0 (by rw [named_operands]; have := h m files hi; omega)
  · rcases parseLoop_panics args 10 [] with ⟨p, hp⟩ | hi'
    · simp [mainIn, main, parseSettings, hne, hp]
    · exact absurd hi' hi

/-- **C126** If the collector closes the files in time, one file at a time is enough. -/
theorem C126_head_collected {limit : Nat} (hl : 1 ≤ limit) (w : World) (args : List Bytes) : mainIn always limit w args = main w args := by
  simp only [mainIn, main, process, processLoopIn_always hl]
  cases parseSettings args <;> rfl

theorem processLoopIn_leaks {limit : Nat} (w : World) (m : Int) (many : Bool) (texts : List (Bytes × List Bytes)) :
    ∀ opened i, ReadsFrom w m i texts → limit < opened + named (texts.map (·.1)) → opened ≤ limit →
    (processLoopIn never limit w m many opened i (texts.map (·.1))).panic = some .explicit := by
  induction texts with
  | nil => intro opened i _ h h'; simp [named] at h; omega
  | cons t texts ih =>
    obtain ⟨f, ls⟩ := t
    intro opened i hr h ho
    obtain ⟨⟨c, h1, h2, h3⟩, hr⟩ := hr
    simp only [List.map_cons, processLoopIn]
    by_cases hc : f ≠ b!"-" ∧ limit ≤ never i opened
    · rw [if_pos hc]
    · rw [if_neg hc, (gives_iff w i f (some c)).1 h1]
      simp only [file_ok h2 m h3, Bool.false_eq_true, if_false]
      by_cases hf : f = b!"-"
      · have hn : named ((f :: texts.map (·.1))) = named (texts.map (·.1)) := by simp [named, hf]
        rw [List.map_cons, hn] at h
        simp only [if_pos hf, never, Nat.add_zero]
        exact ih opened (i + 1) hr h ho
      · have hn : named ((f :: texts.map (·.1))) = named (texts.map (·.1)) + 1 := by simp [named, hf]
        rw [List.map_cons, hn] at h
        simp only [if_neg hf, never]
        have : ¬ limit ≤ opened := fun h => hc ⟨hf, h⟩
        exact ih (opened + 1) (i + 1) hr (by omega) (by omega)

/-- **C126** (refutation) As long as the collector does not run, `head` crashes when it has more files among its operands than can be open at
a time, although every one of them can be read. -/
theorem C126_head_leaks {m : Int} {files args : List Bytes} (h : Invocation 10 m files args) (hne : args ≠ []) (w : World)
    (texts : List (Bytes × List Bytes)) (hf : texts.map (·.1) = operands files) (hr : ReadsFrom w m 0 texts) {limit : Nat} (hl : limit < named files) :
    (mainIn never limit w args).panic = some .explicit ∧ (main w args).panic = none := by
  constructor
  · rw [mainIn_inv h hne, ← hf]
    exact processLoopIn_leaks w m _ texts 0 0 hr (by rw [hf, named_operands]; omega) (by omega)
  · rw [C44_first_lines h hne w texts hf hr]

/-- Three files, two of which can be open. -/
example : mainIn never 2 ⟨fun n => some ⟨n ++ b!"\n", false⟩, fun _ => ⟨[], false⟩⟩ [b!"a", b!"b", b!"c"] =
      { stdout := b!"==> a <==\na\n\n==> b <==\nb\n\n==> c <==\n", panic := some .explicit } ∧
    mainIn never 3 ⟨fun n => some ⟨n ++ b!"\n", false⟩, fun _ => ⟨[], false⟩⟩ [b!"a", b!"b", b!"c"] =
      { stdout := b!"==> a <==\na\n\n==> b <==\nb\n\n==> c <==\nc\n", panic := none } := by decide +kernel

end Head

/-! ## ed -/

namespace Ed

/-- How many `e` commands there are. -/
def edits (cs : List Command) : Nat := (cs.filter (·.typ = .edit)).length

theorem holds_le (pt : Txt.PieceTable) : holds pt ≤ 1 := by unfold holds; split <;> omega

theorem holds_close (pt : Txt.PieceTable) : holds pt.close = 0 := by
  unfold holds Txt.PieceTable.close
  by_cases h : pt.closable = true <;> simp [h]

theorem editIn_eq {limit : Nat} (env : Env) (h : Held) (name : Bytes) (hl : h.lost + holds h.st.pt < limit) :
    (∀ p, edit env h.st name = .error p → editIn limit env h name = .error p) ∧
    ∀ s' e, edit env h.st name = .ok (s', e) → ∃ lost', lost' ≤ h.lost + holds h.st.pt ∧ editIn limit env h name = .ok (⟨s', lost'⟩, e) := by
  constructor
  · intro p hp
    simp only [editIn, if_neg (Nat.not_le.2 hl), hp]
  · intro s' e he
    simp only [editIn, if_neg (Nat.not_le.2 hl), he]
    cases e with
    | none => exact ⟨_, Nat.le_refl _, rfl⟩
    | some e => exact ⟨h.lost, by omega, rfl⟩

theorem writeIn_eq {limit : Nat} (env : Env) (h : Held) (hl : h.lost < limit) :
    (∀ p, write env h.st = .error p → writeIn limit env h = .error p) ∧
    ∀ s' e, write env h.st = .ok (s', e) → ∃ lost', lost' ≤ h.lost ∧ writeIn limit env h = .ok (⟨s', lost'⟩, e) := by
  simp only [write, writeIn]
  cases h.st.pt.string with
  | error p => exact ⟨fun _ h => (by simpa using h), fun _ _ h => (by simp at h)⟩
  | ok data =>
    have hc := holds_close h.st.pt
    simp only [hc]
    rw [if_neg (by omega)]
    generalize saveTrace (env.outcome h.st.writes) h.st.fs h.st.filename data = tr
    obtain ⟨tr1, tr2⟩ := tr
    cases tr2 with
    | some err =>
      simp only []
      refine ⟨fun _ h => (by cases h), fun s' e he => ⟨h.lost, Nat.le_refl _, ?_⟩⟩
      simp only [Except.ok.injEq, Prod.mk.injEq] at he
      rw [← he.1, ← he.2]
    | none =>
      simp only []
      have := editIn_eq (limit := limit) env { h with st := { h.st with pt := h.st.pt.close, fs := finalFS h.st.fs tr1, writes := h.st.writes + 1 } } h.st.filename
        (by simp only [hc]; omega)
      simp only [hc, Nat.add_zero] at this
      exact this

theorem default_typ (c : Command) : (setDefaultAddresses c).typ = c.typ ∧ (setDefaultAddresses c).params = c.params := by
  grind [setDefaultAddresses]

theorem processCommandIn_eq {limit : Nat} (env : Env) (h : Held) (c : Command) (hl : h.lost + 1 + edits [c] ≤ limit) :
    (∀ f, processCommand env h.st c = .error f → processCommandIn limit env h c = .error f) ∧
    ∀ s' out, processCommand env h.st c = .ok (s', out) → ∃ lost', lost' ≤ h.lost + edits [c] ∧ processCommandIn limit env h c = .ok (⟨s', lost'⟩, out) := by
  obtain ⟨d1, d2⟩ := default_typ c
  by_cases he : c.typ = .edit
  · have hn : edits [c] = 1 := by simp [edits, he]
    have hh := holds_le h.st.pt
    rw [hn] at hl ⊢
    obtain ⟨k1, k2⟩ := editIn_eq (limit := limit) env h (c.params.headD []) (by omega)
    simp only [processCommand, processCommandIn, d1, d2, he, if_true]
    cases hx : edit env h.st (c.params.headD []) with
    | error p =>
      rw [k1 p hx]
      exact ⟨fun f h => (by simpa [lift, bind, Except.bind] using h), fun _ _ h => (by cases h)⟩
    | ok r =>
      obtain ⟨lost', g1, g2⟩ := k2 r.1 r.2 hx
      rw [g2]
      refine ⟨fun f h => (by cases h), fun s' out h => ?_⟩
      simp only [lift, bind, Except.bind, pure, Except.pure, Except.ok.injEq, Prod.mk.injEq] at h ⊢
      exact ⟨lost', by omega, by rw [h.1], by rw [← h.2]⟩
  · by_cases hw : c.typ = .write
    · have hn : edits [c] = 0 := by simp [edits, he]
      rw [hn] at hl ⊢
      obtain ⟨k1, k2⟩ := writeIn_eq (limit := limit) env h (by omega)
      have hwe : ¬ CmdType.write = CmdType.edit := by decide
      simp only [processCommand, processCommandIn, d1, hw, if_true, if_neg hwe]
      cases hx : write env h.st with
      | error p =>
        rw [k1 p hx]
        exact ⟨fun f h => (by simpa [lift, bind, Except.bind] using h), fun _ _ h => (by cases h)⟩
      | ok r =>
        obtain ⟨lost', g1, g2⟩ := k2 r.1 r.2 hx
        rw [g2]
        refine ⟨fun f h => (by cases h), fun s' out h => ?_⟩
        simp only [lift, bind, Except.bind, pure, Except.pure, Except.ok.injEq, Prod.mk.injEq] at h ⊢
        exact ⟨lost', by omega, by rw [h.1], by rw [← h.2]; cases r.2 <;> rfl⟩
    · simp only [processCommandIn, if_neg he, if_neg hw]
      refine ⟨fun f hf => by rw [hf]; rfl, fun s' out ho => ⟨h.lost, by omega, by rw [ho]; rfl⟩⟩

theorem edits_cons (c : Command) (cs : List Command) : edits (c :: cs) = edits [c] + edits cs := by
  by_cases h : c.typ = .edit <;> simp [edits, h] <;> omega

/-- **C126** (partial: only as many `e` commands as files can be open) If one more file can be open than there are `e` commands, a session is
what it is without a limit, whatever the collector does and however often the file is saved. -/
theorem C126_ed_partial {gc : Collector} (hgc : gc.Ok) {limit : Nat} (env : Env) (cs : List Command) : ∀ (i : Nat) (h : Held), h.lost + 1 + edits cs ≤ limit →
    (∀ f, runAll env h.st cs = .error f → runAllIn gc limit env i h cs = .error f) ∧
    ∀ s' outs, runAll env h.st cs = .ok (s', outs) → ∃ lost', runAllIn gc limit env i h cs = .ok (⟨s', lost'⟩, outs) := by
  induction cs with
  | nil =>
    intro i h _
    refine ⟨fun f h => (by cases h), fun s' outs he => ⟨h.lost, ?_⟩⟩
    simp only [runAll, Except.ok.injEq, Prod.mk.injEq] at he
    rw [← he.1, ← he.2]
    rfl
  | cons c cs ih =>
    intro i h hl
    rw [edits_cons] at hl
    have hg := hgc i h.lost
    obtain ⟨k1, k2⟩ := processCommandIn_eq (limit := limit) env { h with lost := gc i h.lost } c (by simp only; omega)
    simp only [runAll, runAllIn]
    cases hx : processCommand env h.st c with
    | error f =>
      rw [k1 f hx]
      exact ⟨fun _ h => (by simpa using h), fun _ _ h => (by simp at h)⟩
    | ok r =>
      obtain ⟨s1, out⟩ := r
      obtain ⟨lost', g1, g2⟩ := k2 s1 out hx
      rw [g2]
      simp only at g1 ⊢
      obtain ⟨m1, m2⟩ := ih (i + 1) ⟨s1, lost'⟩ (by simp only; omega)
      simp only at m1 m2
      cases hy : runAll env s1 cs with
      | error f =>
        rw [m1 f hy]
        exact ⟨fun _ h => (by simpa using h), fun _ _ h => (by simp at h)⟩
      | ok r =>
        obtain ⟨s2, outs⟩ := r
        obtain ⟨lost2, n1⟩ := m2 s2 outs hy
        rw [n1]
        refine ⟨fun _ h => (by cases h), fun s' os he => ⟨lost2, ?_⟩⟩
        simp only [Except.ok.injEq, Prod.mk.injEq] at he ⊢
        exact ⟨by rw [he.1], he.2⟩

/-- **C126** (refutation) As long as the collector does not run, `e` fails when it is given once more than files can be open, even if it names
the same file again and again. -/
theorem C126_ed_leaks (env : Env) {name contents : Bytes} (hshort : ¬ Long contents) (n : Nat) : ∀ (i : Nat) (h : Held), h.st.fs name = some contents →
    ∃ h', runAllIn never (h.lost + holds h.st.pt + n) env i h (List.replicate (n + 1) { typ := .edit, params := [name] }) =
      .ok (h', List.replicate n [] ++ [tooMany name]) := by
  induction n with
  | zero =>
    intro i h _
    refine ⟨h, ?_⟩
    simp [runAllIn, processCommandIn, editIn, never, lift, bind, Except.bind, pure, Except.pure]
  | succ n ih =>
    intro i h hf
    -- the command succeeds
    obtain ⟨s', hs, hc, hfs⟩ : ∃ s', edit env h.st name = .ok (s', none) ∧ holds s'.pt = 1 ∧ s'.fs = h.st.fs := by
      have hs : (scanLines contents).2 = false := by
        cases hb : (scanLines contents).2 with
        | false => rfl
        | true => exact absurd ((scan_long_iff contents).1 hb) hshort
      have hg : getLines { h.st with filename := name, pt := Txt.newPieceTable contents true contents.length } =
          .ok (dropBlank (scanLines contents).1) := by
        simp only [getLines, scanned, opened_string contents, hs]
        rfl
      refine ⟨{ h.st with filename := name, pt := Txt.newPieceTable contents true contents.length, currentLine := (dropBlank (scanLines contents).1).length }, ?_, ?_, rfl⟩
      · simp only [edit, hf, hg]
      · simp [holds, Txt.newPieceTable]
    have hn : ¬ h.lost + holds h.st.pt + (n + 1) ≤ h.lost + holds h.st.pt := by omega
    obtain ⟨h', hh⟩ := ih (i + 1) ⟨s', h.lost + holds h.st.pt⟩ (by rw [hfs]; exact hf)
    refine ⟨h', ?_⟩
    rw [List.replicate_succ, runAllIn]
    simp only [processCommandIn, if_true, List.headD_cons, editIn, never, if_neg hn, hs, lift, bind, Except.bind, pure, Except.pure, Option.getD_none]
    simp only [hc] at hh
    rw [show h.lost + holds h.st.pt + (n + 1) = h.lost + holds h.st.pt + 1 + n by omega, hh]
    simp [List.replicate_succ]

/-- One file can be open: the second `e` fails. Without the limit it does not. -/
example (env : Env) (s : State) (hs : s.pt = Txt.zero) (hf : s.fs b!"f" = some b!"one\n") :
    (∃ h', runAllIn never 1 env 0 ⟨s, 0⟩ [{ typ := .edit, params := [b!"f"] }, { typ := .edit, params := [b!"f"] }] = .ok (h', [[], b!"open f: too many open files"])) ∧
    ∃ h', runAllIn never 3 env 0 ⟨s, 0⟩ [{ typ := .edit, params := [b!"f"] }, { typ := .edit, params := [b!"f"] }] = .ok (h', [[], []]) := by
  have hshort : ¬ Long b!"one\n" := by
    rw [← scan_long_iff]
    decide +kernel
  constructor
  · have := C126_ed_leaks env hshort 1 0 ⟨s, 0⟩ hf
    have e : holds s.pt = 0 := by rw [hs]; rfl
    simp only [e] at this
    exact this
  · obtain ⟨s1, e1, -, -, f1⟩ := (C94_open_partial env s hf).2 hshort
    obtain ⟨s2, e2, -, -, -⟩ := (C94_open_partial env s1 (f1 ▸ hf)).2 hshort
    obtain ⟨l, h⟩ := (C126_ed_partial (gc := never) (fun _ n => Nat.le_refl n) (limit := 3) env [{ typ := .edit, params := [b!"f"] }, { typ := .edit, params := [b!"f"] }] 0 ⟨s, 0⟩
      (by simp [edits])).2 s2 [[], []] (by simp only [runAll, e1, e2])
    exact ⟨_, h⟩

end Ed
